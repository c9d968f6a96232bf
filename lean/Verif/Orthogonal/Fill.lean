import Verif.Orthogonal.Model
import Mathlib.Data.List.Pairwise
import Mathlib.Data.Prod.Lex
import Mathlib.Order.Lex
import Mathlib.Tactic.SplitIfs

/-!
# Tables filled by loops satisfy the assignments as equations

If every entry is assigned once, from entries that were assigned before (or never are), the final
table satisfies all the assignments as equations.
-/

set_option linter.unusedSectionVars false

namespace Verif.Orthogonal

variable {A : Type*} [CommRing A] [Algebra ℚ A]

theorem fill_other (steps : List (Step A)) (T : ℕ → ℕ → A) (d i : ℕ)
    (h : ∀ s ∈ steps, ¬ (s.row = d ∧ s.col = i)) : fill T steps d i = T d i := by
  induction steps generalizing T with
  | nil => rfl
  | cons s l ih =>
    simp only [List.mem_cons, forall_eq_or_imp] at h
    rw [fill, List.foldl_cons]
    have := ih (Step.run T s) h.2
    rw [fill] at this
    rw [this, Step.run, if_neg]
    rintro ⟨rfl, rfl⟩
    exact h.1 ⟨rfl, rfl⟩

/-- **Main lemma** on loops: `loop` lists the values of the loop variables in the order of execution,
increasing for `lt`; different values write different entries; the value written depends only on the
entries written by smaller values of the loop variables and on entries never written. Then the final table satisfies all the
assignments as equations. -/
theorem fill_eq {ι : Type*} (loop : List ι) (step : ι → Step A) (lt : ι → ι → Prop)
    (hsort : loop.Pairwise lt) (hirr : ∀ a, ¬ lt a a) (htr : ∀ a b, lt a b → ¬ lt b a)
    (hinj : ∀ a ∈ loop, ∀ b ∈ loop, (step a).row = (step b).row → (step a).col = (step b).col →
      a = b)
    (hdep : ∀ a ∈ loop, ∀ T T' : ℕ → ℕ → A,
      (∀ b ∈ loop, lt b a → T (step b).row (step b).col = T' (step b).row (step b).col) →
      (∀ d i, (∀ b ∈ loop, ¬ ((step b).row = d ∧ (step b).col = i)) → T d i = T' d i) →
      (step a).val T = (step a).val T')
    (T0 : ℕ → ℕ → A) (a : ι) (ha : a ∈ loop) :
    fill T0 (loop.map step) (step a).row (step a).col =
      (step a).val (fill T0 (loop.map step)) := by
  obtain ⟨pre, post, rfl⟩ := List.append_of_mem ha
  rw [List.pairwise_append] at hsort
  obtain ⟨-, hsort2, hpre⟩ := hsort
  rw [List.pairwise_cons] at hsort2
  have hrun : fill T0 ((pre ++ a :: post).map step) =
      fill (Step.run (fill T0 (pre.map step)) (step a)) (post.map step) := by
    simp [fill]
  have hval : fill T0 ((pre ++ a :: post).map step) (step a).row (step a).col =
      (step a).val (fill T0 (pre.map step)) := by
    rw [hrun, fill_other]
    · simp [Step.run]
    · intro s hs ⟨h1, h2⟩
      obtain ⟨b, hb, rfl⟩ := List.mem_map.1 hs
      have : b = a := hinj b (by simp [hb]) a (by simp) h1 h2
      subst this
      exact hirr _ (hsort2.1 b hb)
  rw [hval]
  have hsplit : fill T0 ((pre ++ a :: post).map step) =
      fill (fill T0 (pre.map step)) ((a :: post).map step) := by
    simp [fill]
  refine hdep a ha _ _ ?_ ?_
  swap
  · intro d i hd
    rw [hsplit, fill_other ((a :: post).map step)]
    intro s hs
    obtain ⟨c, hc, rfl⟩ := List.mem_map.1 hs
    exact hd c (by simp at hc ⊢; tauto)
  intro b hb hlt
  have hbpre : b ∈ pre := by
    rcases List.mem_append.1 hb with h | h
    · exact h
    · rcases List.mem_cons.1 h with rfl | h
      · exact absurd hlt (hirr _)
      · exact absurd hlt (htr _ _ (hsort2.1 b h))
  have hnot : ∀ s ∈ (a :: post).map step, ¬ (s.row = (step b).row ∧ s.col = (step b).col) := by
    intro s hs ⟨h1, h2⟩
    obtain ⟨c, hc, rfl⟩ := List.mem_map.1 hs
    have : c = b := hinj c (by simp at hc ⊢; tauto) b hb h1 h2
    subst this
    exact hirr _ (hpre c hbpre c hc)
  rw [hsplit, fill_other _ _ _ _ hnot]

/-! ### Nested loops run in lexicographic order -/

theorem pairwise_range (n : ℕ) : (List.range n).Pairwise (· < ·) := List.pairwise_lt_range

theorem pairwise_flatMap_lex {α β : Type*} {r : α → α → Prop} {s : β → β → Prop} {l : List α}
    (hl : l.Pairwise r) (f : α → List β) (hf : ∀ a, (f a).Pairwise s) :
    (l.flatMap fun a => (f a).map fun b => (a, b)).Pairwise (Prod.Lex r s) := by
  induction l with
  | nil => simp
  | cons a l ih =>
    rw [List.pairwise_cons] at hl
    rw [List.flatMap_cons, List.pairwise_append]
    refine ⟨?_, ih hl.2, ?_⟩
    · rw [List.pairwise_map]
      exact (hf a).imp fun h => Prod.Lex.right _ h
    · rintro ⟨a1, b1⟩ h1 ⟨a2, b2⟩ h2
      simp only [List.mem_map, Prod.mk.injEq, List.mem_flatMap] at h1 h2
      obtain ⟨_, -, rfl, rfl⟩ := h1
      obtain ⟨a', ha', _, -, rfl, rfl⟩ := h2
      exact Prod.Lex.left _ _ (hl.1 _ ha')

/-- Lexicographic order of pairs. -/
def lt2 (a b : ℕ × ℕ) : Prop := a.1 < b.1 ∨ a.1 = b.1 ∧ a.2 < b.2

/-- Lexicographic order of quadruples. -/
def lt4 (a b : ℕ × ℕ × ℕ × ℕ) : Prop :=
  a.1 < b.1 ∨ a.1 = b.1 ∧ (a.2.1 < b.2.1 ∨ a.2.1 = b.2.1 ∧ lt2 a.2.2 b.2.2)

/-- Lexicographic order of sextuples. -/
def lt6 (a b : ℕ × ℕ × ℕ × ℕ × ℕ × ℕ) : Prop :=
  a.1 < b.1 ∨ a.1 = b.1 ∧ (a.2.1 < b.2.1 ∨ a.2.1 = b.2.1 ∧ lt4 a.2.2 b.2.2)

theorem lt2_irrefl (a : ℕ × ℕ) : ¬ lt2 a a := by simp [lt2]
theorem lt4_irrefl (a : ℕ × ℕ × ℕ × ℕ) : ¬ lt4 a a := by simp [lt4, lt2]
theorem lt6_irrefl (a : ℕ × ℕ × ℕ × ℕ × ℕ × ℕ) : ¬ lt6 a a := by simp [lt6, lt4, lt2]
theorem lt2_asymm (a b : ℕ × ℕ) : lt2 a b → ¬ lt2 b a := by unfold lt2; omega
theorem lt4_asymm (a b : ℕ × ℕ × ℕ × ℕ) : lt4 a b → ¬ lt4 b a := by unfold lt4 lt2; omega
theorem lt6_asymm (a b : ℕ × ℕ × ℕ × ℕ × ℕ × ℕ) : lt6 a b → ¬ lt6 b a := by
  unfold lt6 lt4 lt2; omega

/-- A loop around a sorted loop. -/
theorem pairwise_loop {β : Type*} {s : β → β → Prop} (n : ℕ) (f : ℕ → List β)
    (hf : ∀ a, (f a).Pairwise s) :
    ((List.range n).flatMap fun a => (f a).map fun b => (a, b)).Pairwise
      (fun x y => x.1 < y.1 ∨ x.1 = y.1 ∧ s x.2 y.2) := by
  refine (pairwise_flatMap_lex (pairwise_range n) f hf).imp ?_
  rintro ⟨a, b⟩ ⟨c, d⟩ h
  cases h with
  | left _ _ h => exact Or.inl h
  | right _ h => exact Or.inr ⟨rfl, h⟩

theorem intervalLoop_sorted (order derivs : ℕ) : (intervalLoop order derivs).Pairwise lt2 := by
  have := pairwise_loop (s := (· < ·)) (derivs + 1) (fun _ => (List.range order).map (· + 1)) (by
    intro a
    rw [List.pairwise_map]
    exact (pairwise_range _).imp fun h => by omega)
  simp only [List.map_map, Function.comp_def] at this
  exact this

theorem mem_intervalLoop (order derivs : ℕ) (s : ℕ × ℕ) :
    s ∈ intervalLoop order derivs ↔ s.1 ≤ derivs ∧ 1 ≤ s.2 ∧ s.2 ≤ order := by
  simp only [intervalLoop, List.mem_flatMap, List.mem_range, List.mem_map]
  constructor
  · rintro ⟨a, ha, b, hb, rfl⟩; simp; omega
  · rintro ⟨h1, h2, h3⟩; exact ⟨s.1, by omega, s.2 - 1, by omega, by ext <;> simp; omega⟩

theorem triLoop_sorted (order derivs : ℕ) : (triLoop order derivs).Pairwise lt4 := by
  have := pairwise_loop (derivs + 1) _ fun dx =>
    pairwise_loop (derivs + 1 - dx) _ fun dy =>
      pairwise_loop (order + 1) _ fun p => pairwise_range (order - p + 1)
  simp only [List.map_flatMap, List.map_map, Function.comp_def] at this
  exact this

theorem mem_triLoop (order derivs dx dy p q : ℕ) :
    (dx, dy, p, q) ∈ triLoop order derivs ↔ dx + dy ≤ derivs ∧ p + q ≤ order := by
  simp only [triLoop, List.mem_flatMap, List.mem_range, List.mem_map, Prod.mk.injEq]
  constructor
  · rintro ⟨a, ha, b, hb, c, hc, d, hd, rfl, rfl, rfl, rfl⟩; omega
  · rintro ⟨h1, h2⟩
    exact ⟨dx, by omega, dy, by omega, p, by omega, q, by omega, rfl, rfl, rfl, rfl⟩

theorem tetLoop_sorted (order derivs : ℕ) : (tetLoop order derivs).Pairwise lt6 := by
  have := pairwise_loop (derivs + 1) _ fun dx =>
    pairwise_loop (derivs + 1 - dx) _ fun dy =>
      pairwise_loop (derivs + 1 - dx - dy) _ fun _ =>
        pairwise_loop (order + 1) _ fun p => pairwise_loop (order - p + 1) _ fun q =>
          pairwise_range (order - p - q + 1)
  simp only [List.map_flatMap, List.map_map, Function.comp_def] at this
  exact this

theorem mem_tetLoop (order derivs dx dy dz p q r : ℕ) :
    (dx, dy, dz, p, q, r) ∈ tetLoop order derivs ↔ dx + dy + dz ≤ derivs ∧ p + q + r ≤ order := by
  simp only [tetLoop, List.mem_flatMap, List.mem_range, List.mem_map, Prod.mk.injEq]
  constructor
  · rintro ⟨a, ha, b, hb, c, hc, d, hd, e, he, f, hf, rfl, rfl, rfl, rfl, rfl, rfl⟩; omega
  · rintro ⟨h1, h2⟩
    exact ⟨dx, by omega, dy, by omega, dz, by omega, p, by omega, q, by omega, r, by omega,
      rfl, rfl, rfl, rfl, rfl, rfl⟩

theorem pyrLoop_sorted (order derivs : ℕ) : (pyrLoop order derivs).Pairwise lt6 := by
  have := pairwise_loop (derivs + 1) _ fun dx =>
    pairwise_loop (derivs + 1 - dx) _ fun dy =>
      pairwise_loop (derivs + 1 - dx - dy) _ fun _ =>
        pairwise_loop (order + 1) _ fun i => pairwise_loop (order + 1) _ fun j =>
          pairwise_range (order + 1 - max i j)
  simp only [List.map_flatMap, List.map_map, Function.comp_def] at this
  exact this

theorem mem_pyrLoop (order derivs dx dy dz i j k : ℕ) :
    (dx, dy, dz, i, j, k) ∈ pyrLoop order derivs ↔
      dx + dy + dz ≤ derivs ∧ i + k ≤ order ∧ j + k ≤ order := by
  simp only [pyrLoop, List.mem_flatMap, List.mem_range, List.mem_map, Prod.mk.injEq]
  constructor
  · rintro ⟨a, ha, b, hb, c, hc, d, hd, e, he, f, hf, rfl, rfl, rfl, rfl, rfl, rfl⟩; omega
  · rintro ⟨h1, h2⟩
    exact ⟨dx, by omega, dy, by omega, dz, by omega, i, by omega, j, by omega, k, by omega,
      rfl, rfl, rfl, rfl, rfl, rfl⟩

end Verif.Orthogonal
