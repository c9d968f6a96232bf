import Verif.Scalar.NonConforming
/-!
# Mardal–Tai–Winther elements on triangles
-/

namespace Verif.Families
open Verif.References Verif.Elements Verif.FiniteElement Verif.Polysets Verif.Moments Verif.Orthogonal
open Verif.Scalar
open MvPolynomial

/-! ### The element -/

/-- The functions on triangles (symfem/elements/mtw.py:50-68). -/
def mtwPolys : List VecPoly :=
  [[[(1, [0, 0])], []], [[(1, [1, 0])], []], [[(1, [0, 1])], []], [[], [(1, [0, 0])]], [[], [(1, [1, 0])]], [[], [(1, [0, 1])]],
   [[(1, [2, 0]), (2, [1, 1])], [(-2, [1, 1]), (-1, [0, 2])]],
   [[(-1, [3, 0]), (2, [2, 0]), (3, [1, 2])], [(3, [2, 1]), (-4, [1, 1]), (-1, [0, 3])]],
   [[(2, [2, 1]), (1, [2, 0]), (3, [1, 2])], [(-2, [1, 2]), (-2, [1, 1]), (-1, [0, 3])]]]

/-- `MardalTaiWinther(reference, order, variant)` on triangles (symfem/elements/mtw.py:31-91). -/
noncomputable def mtwTriangle (variant : String) (k : ℕ) : Option (Element ℝ (Field Cell.triangle.tdim)) :=
  if k = 3 then
    momentElementWith lagrangeClasses .triangle (some mtwPolys)
      { facets := some (.single [.cls "NormalIntegralMoment", .cls "Lagrange", .int 1, .str "contravariant", .dict [("variant", variant)]]) }
      ((makeIntegralMomentDofs lagrangeClasses .triangle
        { facets := some (.single [.cls "TangentIntegralMoment", .cls "Lagrange", .int 0, .str "contravariant", .dict [("variant", variant)]]) }).bind
        fun ms => ms.mapM (momentDof .triangle))
  else none

/-! ### The space -/

/-- Cubic fields whose divergence is constant and whose normal component on every edge is affine. -/
def MTW2 (v : Field 2) : Prop :=
  (∀ j, v j ∈ P 2 3) ∧ (∃ a : ℝ, divL 2 v = C a) ∧
  ∀ i ≤ 2, ∃ p ∈ P 2 1, ∀ z, OnFacet 2 i z → ∑ j, facetNormal i j.val * eval z (v j) = eval z p

/-! ### Polynomials of low degree -/

theorem P_two_two {p : MvPolynomial ℕ ℝ} (hp : p ∈ P 2 2) : ∃ a : ℕ → ℝ,
    p = C (a 0) + C (a 1) * X 0 + C (a 2) * X 0 ^ 2 + C (a 3) * X 1 + C (a 4) * (X 0 * X 1) + C (a 5) * X 1 ^ 2 := by
  obtain ⟨l, l1, l2⟩ := polySet_lspan (d := 2) (by simp) ((2 : ℕ) : ℤ)
  have hl : l = [[0, 0], [1, 0], [2, 0], [0, 1], [1, 1], [0, 2]] := by
    have : polySet 2 ((2 : ℕ) : ℤ) = some [[0, 0], [1, 0], [2, 0], [0, 1], [1, 1], [0, 2]] := by decide
    exact Option.some.inj (l1.symm.trans this)
  have hp' : p ∈ lspan (l.map (denoteMono ℝ)) := by
    rw [l2]
    exact hp
  rw [list_eq_range (l.map (denoteMono ℝ)), mem_lspan_range] at hp'
  obtain ⟨a, rfl⟩ := hp'
  refine ⟨a, ?_⟩
  rw [hl]
  simp [Finset.sum_range_succ, denoteMono, monoFrom, smul_eq_C_mul]

theorem P_one_three {p : MvPolynomial ℕ ℝ} (hp : p ∈ P 1 3) : ∃ a : ℕ → ℝ,
    p = C (a 0) + C (a 1) * X 0 + C (a 2) * X 0 ^ 2 + C (a 3) * X 0 ^ 3 := by
  obtain ⟨l, l1, l2⟩ := polySet_lspan (d := 1) (by simp) ((3 : ℕ) : ℤ)
  have hl : l = [[0], [1], [2], [3]] := by
    have : polySet 1 ((3 : ℕ) : ℤ) = some [[0], [1], [2], [3]] := by decide
    exact Option.some.inj (l1.symm.trans this)
  have hp' : p ∈ lspan (l.map (denoteMono ℝ)) := by
    rw [l2]
    exact hp
  rw [list_eq_range (l.map (denoteMono ℝ)), mem_lspan_range] at hp'
  obtain ⟨a, rfl⟩ := hp'
  refine ⟨a, ?_⟩
  rw [hl]
  simp [Finset.sum_range_succ, denoteMono, monoFrom, smul_eq_C_mul]

/-- Simpson's rule is exact for cubic polynomials. -/
theorem simpson {p : MvPolynomial ℕ ℝ} (hp : p ∈ P 1 3) : pairing1 .interval p 1 =
    (eval (fun _ => 0) p + 4 * eval (fun _ => 1 / 2) p + eval (fun _ => 1) p) / 6 := by
  obtain ⟨a, rfl⟩ := P_one_three hp
  have h0 : ∀ n : ℕ, pairing1 .interval 1 (X 0 ^ n) = 1 / ((n : ℝ) + 1) := by
    intro n
    show cellInt .interval (fun z => eval z (1 * X 0 ^ n)) = _
    rw [cellInt_interval]
    simp
  have h1 := h0 0
  have h2 := h0 1
  have h3 := h0 2
  have h4 := h0 3
  rw [pow_zero] at h1
  rw [pow_one] at h2
  have e : (C (a 0) + C (a 1) * X 0 + C (a 2) * X 0 ^ 2 + C (a 3) * X 0 ^ 3 : MvPolynomial ℕ ℝ) =
      a 0 • 1 + a 1 • X 0 + a 2 • X 0 ^ 2 + a 3 • X 0 ^ 3 := by
    simp only [smul_eq_C_mul, mul_one]
  rw [pairing1_comm, e, map_add, map_add, map_add, map_smul, map_smul, map_smul, map_smul, h1, h2, h3, h4]
  simp only [map_add, smul_eval, map_pow, eval_X, map_one, smul_eq_mul]
  norm_num
  ring

/-! ### Unisolvence -/

theorem mtw_zero {v : Field 2} (hv : ∀ j, v j ∈ P 2 3) {a : ℝ} (hd : divL 2 v = C a) (hn : NormalZero 2 v)
    (h0 : eval (coords [1 / 2, 0]) (v 0) = 0) (h1 : eval (coords [0, 1 / 2]) (v 1) = 0)
    (h2 : eval (coords [1 / 2, 1 / 2]) (v 1) = eval (coords [1 / 2, 1 / 2]) (v 0)) : v = 0 := by
  obtain ⟨ψ, -, e1, -, e2, -⟩ := hn.factors (by norm_num) hv
  obtain ⟨b, hb⟩ := P_two_two (e2 0)
  obtain ⟨c, hc⟩ := P_two_two (e2 1)
  have f0 : v 0 = X 0 * (C (b 0) + C (b 1) * X 0 + C (b 2) * X 0 ^ 2 + C (b 3) * X 1 + C (b 4) * (X 0 * X 1) + C (b 5) * X 1 ^ 2) := by
    rw [e1, hb]
    rfl
  have f1 : v 1 = X 1 * (C (c 0) + C (c 1) * X 0 + C (c 2) * X 0 ^ 2 + C (c 3) * X 1 + C (c 4) * (X 0 * X 1) + C (c 5) * X 1 ^ 2) := by
    rw [e1, hc]
    rfl
  have g : ∀ x y : ℝ, x + y = 1 → x * (b 0 + b 1 * x + b 2 * x ^ 2 + b 3 * y + b 4 * (x * y) + b 5 * y ^ 2) +
      y * (c 0 + c 1 * x + c 2 * x ^ 2 + c 3 * y + c 4 * (x * y) + c 5 * y ^ 2) = 0 := by
    intro x y hxy
    have := hn.last (coords [x, y]) (by rw [Fin.sum_univ_two]; simpa [coords] using hxy)
    rw [Fin.sum_univ_two, f0, f1] at this
    simpa [coords] using this
  have d : ∀ x y : ℝ, (b 0 + 2 * b 1 * x + 3 * b 2 * x ^ 2 + b 3 * y + 2 * b 4 * (x * y) + b 5 * y ^ 2) +
      (c 0 + c 1 * x + c 2 * x ^ 2 + 2 * c 3 * y + 2 * c 4 * (x * y) + 3 * c 5 * y ^ 2) = a := by
    intro x y
    have h : divL 2 v = pderiv 0 (v 0) + pderiv 1 (v 1) := by
      simp [divL, Fin.sum_univ_two]
    have := congrArg (eval (coords [x, y])) hd
    rw [h, f0, f1] at this
    simp [coords, pderiv_X, Derivation.leibniz_pow, smul_eq_mul, Pi.single_apply] at this
    linear_combination this
  rw [f0] at h0 h2
  rw [f1] at h1 h2
  simp [coords] at h0 h1 h2
  have g0 := g 1 0 (by norm_num)
  have g1 := g 0 1 (by norm_num)
  have g2 := g 2 (-1) (by norm_num)
  have g3 := g (-1) 2 (by norm_num)
  have g4 := g (1 / 2) (1 / 2) (by norm_num)
  have d0 := d 0 0
  have d1 := d 1 0
  have d2 := d (-1) 0
  have d3 := d 0 1
  have d4 := d 0 (-1)
  have d5 := d 1 1
  norm_num at g0 g1 g2 g3 g4 d0 d1 d2 d3 d4 d5 h0 h1 h2
  have hb' : b 0 = 0 ∧ b 1 = 0 ∧ b 2 = 0 ∧ b 3 = 0 ∧ b 4 = 0 ∧ b 5 = 0 := by
    refine ⟨?_, ?_, ?_, ?_, ?_, ?_⟩ <;> linarith
  have hc' : c 0 = 0 ∧ c 1 = 0 ∧ c 2 = 0 ∧ c 3 = 0 ∧ c 4 = 0 ∧ c 5 = 0 := by
    refine ⟨?_, ?_, ?_, ?_, ?_, ?_⟩ <;> linarith
  obtain ⟨b0, b1, b2, b3, b4, b5⟩ := hb'
  obtain ⟨c0, c1, c2, c3, c4, c5⟩ := hc'
  funext j
  fin_cases j
  · show v 0 = 0
    rw [f0, b0, b1, b2, b3, b4, b5]
    simp
  · show v 1 = 0
    rw [f1, c0, c1, c2, c3, c4, c5]
    simp

/-- If as many functionals as there are functions determine the functions of a space that contains the functions, the element is created and
has that space. -/
theorem created_of_unisolvent {V : Type} [AddCommGroup V] [Module ℝ V] {basis : List V} {dofs : List (Dof ℝ V)} {S : Submodule ℝ V}
    (hl : dofs.length = basis.length) (hi : Independent ℝ basis) (hb : ∀ b ∈ basis, b ∈ S)
    (hu : ∀ p ∈ S, (∀ d ∈ dofs, d.eval p = 0) → p = 0) :
    Created (ciarlet basis dofs) (· ∈ S) basis.length fun ds => ds = dofs := by
  have hle : lspan basis ≤ S := Submodule.span_le.2 fun b h => hb b h
  let Λ : S →ₗ[ℝ] (Fin dofs.length → ℝ) := (LinearMap.pi fun i => dofs[i].eval) ∘ₗ S.subtype
  have hinj : Function.Injective Λ := by
    rw [← LinearMap.ker_eq_bot, LinearMap.ker_eq_bot']
    intro m hm
    refine Subtype.ext (hu m.1 m.2 fun d hd => ?_)
    obtain ⟨i, hi, rfl⟩ := List.getElem_of_mem hd
    exact congrFun hm ⟨i, hi⟩
  have : FiniteDimensional ℝ S := FiniteDimensional.of_injective Λ hinj
  have h1 : Module.finrank ℝ S ≤ dofs.length := by
    have := LinearMap.finrank_le_finrank_of_injective hinj
    rwa [Module.finrank_fintype_fun_eq_card, Fintype.card_fin] at this
  have h2 : lspan basis = S := Submodule.eq_of_le_of_finrank_le hle (by rw [← (independent_finrank basis).1 hi, ← hl]; exact h1)
  obtain ⟨h3, fs, h4, h5, h6⟩ := ciarlet_basis hl hi fun p hp => hu p (hle hp)
  exact ⟨_, _, fs, h3, h4, hl, h6, fun v => by rw [h5, h2], hu, rfl⟩

/-- The space, as a submodule. -/
def mtwSub : Submodule ℝ (Field 2) where
  carrier := {v | MTW2 v}
  zero_mem' := ⟨fun _ => Submodule.zero_mem _, ⟨0, by rw [map_zero, C_0]⟩, fun i _ => ⟨0, Submodule.zero_mem _, fun z _ => by simp⟩⟩
  add_mem' := by
    rintro v w ⟨h1, ⟨a, h2⟩, h3⟩ ⟨h1', ⟨a', h2'⟩, h3'⟩
    refine ⟨fun j => Submodule.add_mem _ (h1 j) (h1' j), ⟨a + a', by rw [map_add, h2, h2', C_add]⟩, fun i hi => ?_⟩
    obtain ⟨p, hp, e⟩ := h3 i hi
    obtain ⟨p', hp', e'⟩ := h3' i hi
    refine ⟨p + p', Submodule.add_mem _ hp hp', fun z hz => ?_⟩
    rw [map_add, ← e z hz, ← e' z hz, ← Finset.sum_add_distrib]
    exact Finset.sum_congr rfl fun j _ => by rw [Pi.add_apply, map_add]; ring
  smul_mem' := by
    rintro r v ⟨h1, ⟨a, h2⟩, h3⟩
    refine ⟨fun j => Submodule.smul_mem _ _ (h1 j), ⟨r * a, by rw [map_smul, h2, smul_eq_C_mul, C_mul]⟩, fun i hi => ?_⟩
    obtain ⟨p, hp, e⟩ := h3 i hi
    refine ⟨r • p, Submodule.smul_mem _ _ hp, fun z hz => ?_⟩
    rw [smul_eval, ← e z hz, Finset.mul_sum]
    exact Finset.sum_congr rfl fun j _ => by rw [Pi.smul_apply, smul_eval]; ring

theorem coords_eval {p : MvPolynomial ℕ ℝ} {k : ℤ} (hp : p ∈ P 2 k) (z : ℕ → ℝ) : eval z p = eval (coords [z 0, z 1]) p :=
  eval_congr_P hp fun l hl => by interval_cases l <;> rfl

theorem denotePoly_mem {d : ℕ} {k : ℤ} {p : List (ℤ × Mono)} (h : ∀ t ∈ p, t.2.length = d ∧ (t.2.sum : ℤ) ≤ k) : denotePoly ℝ p ∈ P d k := by
  unfold denotePoly
  refine list_sum_mem fun q hq => ?_
  obtain ⟨t, ht, rfl⟩ := List.mem_map.1 hq
  rw [← smul_eq_C_mul]
  exact Submodule.smul_mem _ _ (denoteMono_mem (h t ht).1 (h t ht).2)

/-- The functions are in the space. -/
theorem mtw_mem : ∀ b ∈ mtwPolys.map (denoteVec ℝ 2), b ∈ mtwSub := by
  intro b hb
  obtain ⟨p, hp, rfl⟩ := List.mem_map.1 hb
  have hdeg : ∀ p ∈ mtwPolys, ∀ q ∈ p, ∀ t ∈ q, t.2.length = 2 ∧ (t.2.sum : ℤ) ≤ 3 := by decide
  have hlen : ∀ p ∈ mtwPolys, p.length = 2 := by decide
  refine ⟨fun j => ?_, ?_, ?_⟩
  · refine denotePoly_mem (hdeg p hp _ ?_)
    have := hlen p hp
    rw [List.getElem?_eq_getElem (by omega), Option.getD_some]
    exact List.getElem_mem _
  · have h : ∀ v : Field 2, divL 2 v = pderiv 0 (v 0) + pderiv 1 (v 1) := fun v => by
      simp [divL, Fin.sum_univ_two]
    rw [h]
    simp only [mtwPolys, List.mem_cons, List.not_mem_nil, or_false] at hp
    rcases hp with rfl | rfl | rfl | rfl | rfl | rfl | rfl | rfl | rfl
    · refine ⟨0, ?_⟩
      simp [denoteVec, denotePoly, denoteMono, monoFrom]
    · refine ⟨1, ?_⟩
      simp [denoteVec, denotePoly, denoteMono, monoFrom]
    · refine ⟨0, ?_⟩
      simp [denoteVec, denotePoly, denoteMono, monoFrom]
    · refine ⟨0, ?_⟩
      simp [denoteVec, denotePoly, denoteMono, monoFrom]
    · refine ⟨0, ?_⟩
      simp [denoteVec, denotePoly, denoteMono, monoFrom]
    · refine ⟨1, ?_⟩
      simp [denoteVec, denotePoly, denoteMono, monoFrom]
    all_goals
      refine ⟨0, ?_⟩
      have hn : ∀ i n : ℕ, pderiv (R := ℝ) (σ := ℕ) i (n : MvPolynomial ℕ ℝ) = 0 := fun i n => (pderiv i).map_natCast n
      have h2 := fun i => hn i 2
      have h3 := fun i => hn i 3
      have h4 := fun i => hn i 4
      push_cast at h2 h3 h4
      simp [denoteVec, denotePoly, denoteMono, monoFrom, Derivation.leibniz_pow, h2, h3, h4]
      ring
  · intro i hi
    have hsum : ∀ f : Fin 2 → ℝ, ∑ j, f j = f 0 + f 1 := fun f => Fin.sum_univ_two f
    have hP : ∀ a b c : ℝ, C a + C b * X 0 + C c * X 1 ∈ P 2 1 := fun a b c =>
      Submodule.add_mem _ (Submodule.add_mem _ (C_mem _ (by norm_num))
        (by rw [← smul_eq_C_mul]; exact Submodule.smul_mem _ _ (X_mem (by norm_num))))
        (by rw [← smul_eq_C_mul]; exact Submodule.smul_mem _ _ (X_mem (by norm_num)))
    have key : ∀ a b c : ℝ, (∀ z, OnFacet 2 i z → ∑ j, facetNormal i j.val * eval z (denoteVec ℝ 2 p j) = a + b * z 0 + c * z 1) →
        ∃ q ∈ P 2 1, ∀ z, OnFacet 2 i z → ∑ j, facetNormal i j.val * eval z (denoteVec ℝ 2 p j) = eval z q :=
      fun a b c h => ⟨_, hP a b c, fun z hz => by rw [h z hz]; simp⟩
    simp only [mtwPolys, List.mem_cons, List.not_mem_nil, or_false] at hp
    have hon : ∀ z, OnFacet 2 0 z ↔ z 0 + z 1 = 1 := fun z => by simp [OnFacet, Fin.sum_univ_two]
    interval_cases i
    · have goal : ∃ a b c : ℝ, ∀ z : ℕ → ℝ, z 1 = 1 - z 0 → eval z (denoteVec ℝ 2 p 0) + eval z (denoteVec ℝ 2 p 1) = a + b * z 0 + c * z 1 := by
        rcases hp with rfl | rfl | rfl | rfl | rfl | rfl | rfl | rfl | rfl
        · exact ⟨1, 0, 0, fun z h => by simp [denoteVec, denotePoly, denoteMono, monoFrom]⟩
        · exact ⟨0, 1, 0, fun z h => by simp [denoteVec, denotePoly, denoteMono, monoFrom]⟩
        · exact ⟨0, 0, 1, fun z h => by simp [denoteVec, denotePoly, denoteMono, monoFrom]⟩
        · exact ⟨1, 0, 0, fun z h => by simp [denoteVec, denotePoly, denoteMono, monoFrom]⟩
        · exact ⟨0, 1, 0, fun z h => by simp [denoteVec, denotePoly, denoteMono, monoFrom]⟩
        · exact ⟨0, 0, 1, fun z h => by simp [denoteVec, denotePoly, denoteMono, monoFrom]⟩
        · exact ⟨0, 1, -1, fun z h => by simp [denoteVec, denotePoly, denoteMono, monoFrom, h]; ring⟩
        · exact ⟨-1, 2, 0, fun z h => by simp [denoteVec, denotePoly, denoteMono, monoFrom, h]; ring⟩
        · exact ⟨0, 1, -1, fun z h => by simp [denoteVec, denotePoly, denoteMono, monoFrom, h]; ring⟩
      obtain ⟨a, b, c, h⟩ := goal
      refine key a b c fun z hz => ?_
      rw [hsum, ← h z (by have := (hon z).1 hz; linarith)]
      simp [facetNormal]
    · have goal : ∃ a b c : ℝ, ∀ z : ℕ → ℝ, z 0 = 0 → eval z (denoteVec ℝ 2 p 0) = a + b * z 0 + c * z 1 := by
        rcases hp with rfl | rfl | rfl | rfl | rfl | rfl | rfl | rfl | rfl
        · exact ⟨1, 0, 0, fun z h => by simp [denoteVec, denotePoly, denoteMono, monoFrom]⟩
        · exact ⟨0, 0, 0, fun z h => by simp [denoteVec, denotePoly, denoteMono, monoFrom, h]⟩
        · exact ⟨0, 0, 1, fun z h => by simp [denoteVec, denotePoly, denoteMono, monoFrom]⟩
        all_goals exact ⟨0, 0, 0, fun z h => by simp [denoteVec, denotePoly, denoteMono, monoFrom, h]⟩
      obtain ⟨a, b, c, h⟩ := goal
      refine key a b c fun z hz => ?_
      rw [hsum, ← h z hz]
      simp [facetNormal]
    · have goal : ∃ a b c : ℝ, ∀ z : ℕ → ℝ, z 1 = 0 → eval z (denoteVec ℝ 2 p 1) = a + b * z 0 + c * z 1 := by
        rcases hp with rfl | rfl | rfl | rfl | rfl | rfl | rfl | rfl | rfl
        · exact ⟨0, 0, 0, fun z h => by simp [denoteVec, denotePoly, denoteMono, monoFrom, h]⟩
        · exact ⟨0, 0, 0, fun z h => by simp [denoteVec, denotePoly, denoteMono, monoFrom, h]⟩
        · exact ⟨0, 0, 0, fun z h => by simp [denoteVec, denotePoly, denoteMono, monoFrom, h]⟩
        · exact ⟨1, 0, 0, fun z h => by simp [denoteVec, denotePoly, denoteMono, monoFrom]⟩
        · exact ⟨0, 1, 0, fun z h => by simp [denoteVec, denotePoly, denoteMono, monoFrom]⟩
        all_goals exact ⟨0, 0, 0, fun z h => by simp [denoteVec, denotePoly, denoteMono, monoFrom, h]⟩
      obtain ⟨a, b, c, h⟩ := goal
      refine key a b c fun z hz => ?_
      rw [hsum, ← h z hz]
      simp [facetNormal]

theorem mtw_independent : Independent ℝ (mtwPolys.map (denoteVec ℝ 2)) := by
  rw [list_eq_range (mtwPolys.map (denoteVec ℝ 2))]
  refine independent_range _ _ fun a ha => ?_
  have h0 : ∀ x y : ℝ, a 0 + a 1 * x + a 2 * y + a 6 * (x ^ 2 + 2 * (x * y)) + a 7 * (-x ^ 3 + 2 * x ^ 2 + 3 * (x * y ^ 2)) +
      a 8 * (2 * (x ^ 2 * y) + x ^ 2 + 3 * (x * y ^ 2)) = 0 := by
    intro x y
    have := congrArg (eval (coords [x, y])) (congrFun ha 0)
    simp [mtwPolys, Finset.sum_range_succ, denoteVec, denotePoly, denoteMono, monoFrom, coords] at this
    linear_combination this
  have h1 : ∀ x y : ℝ, a 3 + a 4 * x + a 5 * y + a 6 * (-2 * (x * y) - y ^ 2) + a 7 * (3 * (x ^ 2 * y) - 4 * (x * y) - y ^ 3) +
      a 8 * (-2 * (x * y ^ 2) - 2 * (x * y) - y ^ 3) = 0 := by
    intro x y
    have := congrArg (eval (coords [x, y])) (congrFun ha 1)
    simp [mtwPolys, Finset.sum_range_succ, denoteVec, denotePoly, denoteMono, monoFrom, coords] at this
    linear_combination this
  have p0 := h0 0 0
  have p1 := h0 0 1
  have p2 := h0 1 0
  have p3 := h0 (-1) 0
  have p4 := h0 2 0
  have p5 := h0 1 1
  have q0 := h1 0 0
  have q1 := h1 1 0
  have q2 := h1 0 1
  have q3 := h1 0 (-1)
  have q4 := h1 0 2
  have q5 := h1 1 1
  norm_num at p0 p1 p2 p3 p4 p5 q0 q1 q2 q3 q4 q5
  intro i hi
  have hi' : i < 9 := hi
  interval_cases i <;> linarith

/-! ### The functionals -/

/-- The edges of the triangle. -/
theorem tri_edge {i : ℕ} (hi : i ≤ 2) (t : ℕ → ℝ) : OnFacet 2 i ((entityDomain .triangle (1, i)).param t) := by
  have hv : ∀ i j k, (entityDomain .triangle (1, i)).v j k = refVertex .triangle ((entVerts .triangle 1 i).getD j 0) k :=
    fun _ _ _ => rfl
  have hp : (entityDomain .triangle (1, i)).param t = _ := interval_param 2 (entityDomain .triangle (1, i)).v t
  rw [hp]
  have e0 : entVerts .triangle 1 0 = [1, 2] := rfl
  have e1 : entVerts .triangle 1 1 = [0, 2] := rfl
  have e2 : entVerts .triangle 1 2 = [0, 1] := rfl
  interval_cases i <;> simp [OnFacet, Fin.sum_univ_two, hv, e0, e1, e2, refVertex, refVerts, coords]

/-- The normal component, as a function of the parameter, is affine. -/
theorem mtw_trace {v : Field Cell.triangle.tdim} (hv : MTW2 v) {i : ℕ} (hi : i ≤ 2) :
    comp (entityDomain .triangle (Cell.triangle.tdim - 1, i)) (areaVec Cell.triangle.tdim (entityDomain .triangle (Cell.triangle.tdim - 1, i)).v) v ∈ P 1 1 := by
  obtain ⟨-, -, h⟩ := hv
  obtain ⟨p, hp, h⟩ := h i hi
  obtain ⟨s, -, hs⟩ := br_area (c := .triangle) (Or.inl rfl) (i := i) hi
  have : comp (entityDomain .triangle (Cell.triangle.tdim - 1, i)) (areaVec Cell.triangle.tdim (entityDomain .triangle (Cell.triangle.tdim - 1, i)).v) v =
      s • pull (entityDomain .triangle (1, i)) p := by
    refine MvPolynomial.funext fun t => ?_
    rw [smul_eval, eval_pull, ← h _ (tri_edge hi t), Finset.mul_sum]
    refine (eval_comp (entityDomain .triangle (1, i)) _ v t).trans (Finset.sum_congr rfl fun j _ => ?_)
    rw [hs j.val j.2, mul_assoc]
  rw [this]
  exact Submodule.smul_mem _ _ (pull_mem (entityDomain .triangle (1, i)) hp)

/-- The values of the functionals determine the functions. -/
theorem mtw_determined {xs ys : List (MvPolynomial ℕ ℝ)} (hxs : lspan xs = P 1 1) (hys : lspan ys = P 1 0) {v : Field Cell.triangle.tdim} (hv : MTW2 v)
    (h1 : ∀ i ≤ 2, ∀ x ∈ xs, pairing1 .interval x (comp (entityDomain .triangle (Cell.triangle.tdim - 1, i))
      (areaVec Cell.triangle.tdim (entityDomain .triangle (Cell.triangle.tdim - 1, i)).v) v) = 0)
    (h2 : ∀ i ≤ 2, ∀ y ∈ ys, pairing1 .interval (comp ⟨.interval, Cell.triangle.tdim, (entityDomain .triangle (1, i)).v⟩
      (axis .interval (entityDomain .triangle (1, i)).v 0) v) y = 0) : v = 0 := by
  have hc : Simp .triangle := Or.inl rfl
  have hdeg : ∀ j, v j ∈ P 2 3 := hv.1
  have z1 : ∀ i ≤ 2, comp (entityDomain .triangle (Cell.triangle.tdim - 1, i))
      (areaVec Cell.triangle.tdim (entityDomain .triangle (Cell.triangle.tdim - 1, i)).v) v = 0 := by
    intro i hi
    refine eq_zero_of_pairing (c := .interval) solid_interval (mtw_trace hv hi) (fs := xs) ?_ ?_
    · rw [hxs]
      exact mtw_trace hv hi
    · intro x hx
      rw [pairing1_comm]
      exact h1 i hi x hx
  have hn : NormalZero 2 v := by
    refine normalZero_of (c := .triangle) fun i hi z hz => ?_
    obtain ⟨s, hs, hA⟩ := br_area hc hi
    obtain ⟨y, hy⟩ := (facet_facts hc hi).covers z hz
    have := (eval_comp (entityDomain .triangle (1, i)) _ v y).symm.trans (congrArg (eval y) (z1 i hi))
    rw [map_zero] at this
    have h3 : s * ∑ j : Fin Cell.triangle.tdim, facetNormal i j.val * eval z (v j) = 0 := by
      rw [← this, Finset.mul_sum]
      refine Finset.sum_congr rfl fun j _ => ?_
      rw [← mul_assoc, ← hA j.val j.2, eval_congr_P (hdeg j) fun l hl => (hy l hl).symm]
      rfl
    exact (mul_eq_zero.1 h3).resolve_left hs
  have hver := fun l (hl : l < Cell.triangle.nverts) j => normalZero_vertex hc hn hl j
  obtain ⟨a, ha⟩ := hv.2.1
  have mid : ∀ i ≤ 2, ∑ j : Fin 2, axis .interval (entityDomain .triangle (1, i)).v 0 j.val *
      eval (fun l => (entityDomain .triangle (1, i)).v 0 l + 1 / 2 * ((entityDomain .triangle (1, i)).v 1 l - (entityDomain .triangle (1, i)).v 0 l)) (v j) = 0 := by
    intro i hi
    have hq : comp ⟨.interval, Cell.triangle.tdim, (entityDomain .triangle (1, i)).v⟩ (axis .interval (entityDomain .triangle (1, i)).v 0) v ∈ P 1 3 :=
      comp_mem ⟨.interval, Cell.triangle.tdim, (entityDomain .triangle (1, i)).v⟩ (d := 2) _ hdeg
    have h3 : pairing1 .interval (comp ⟨.interval, Cell.triangle.tdim, (entityDomain .triangle (1, i)).v⟩
      (axis .interval (entityDomain .triangle (1, i)).v 0) v) 1 = 0 := by
      have h1m : (1 : MvPolynomial ℕ ℝ) ∈ lspan ys := by
        rw [hys]
        exact one_mem (by norm_num)
      exact (Submodule.span_le (p := LinearMap.ker (pairing1 .interval (comp ⟨.interval, Cell.triangle.tdim, (entityDomain .triangle (1, i)).v⟩
        (axis .interval (entityDomain .triangle (1, i)).v 0) v)))).2 (fun f hf => h2 i hi f hf) h1m
    rw [simpson hq] at h3
    have ev := fun t => eval_comp ⟨.interval, Cell.triangle.tdim, (entityDomain .triangle (1, i)).v⟩ (axis .interval (entityDomain .triangle (1, i)).v 0) v t
    simp only [interval_param] at ev
    rw [ev, ev, ev] at h3
    have v0 : ∀ j : Fin Cell.triangle.tdim, eval (fun l => (entityDomain .triangle (1, i)).v 0 l + 0 * ((entityDomain .triangle (1, i)).v 1 l - (entityDomain .triangle (1, i)).v 0 l)) (v j) = 0 := by
      intro j
      simp only [zero_mul, add_zero]
      exact hver _ (by interval_cases i <;> decide) j
    have v1 : ∀ j : Fin Cell.triangle.tdim, eval (fun l => (entityDomain .triangle (1, i)).v 0 l + 1 * ((entityDomain .triangle (1, i)).v 1 l - (entityDomain .triangle (1, i)).v 0 l)) (v j) = 0 := by
      intro j
      simp only [one_mul, add_sub_cancel]
      exact hver _ (by interval_cases i <;> decide) j
    simp only [v0, v1, mul_zero, Finset.sum_const_zero, zero_add, add_zero] at h3
    exact (mul_eq_zero.1 ((div_eq_zero_iff.1 h3).resolve_right (by norm_num))).resolve_left (by norm_num)
  have hw : ∀ i j k, (entityDomain .triangle (1, i)).v j k = refVertex .triangle ((entVerts .triangle 1 i).getD j 0) k :=
    fun _ _ _ => rfl
  have e0 : entVerts .triangle 1 0 = [1, 2] := rfl
  have e1 : entVerts .triangle 1 1 = [0, 2] := rfl
  have e2 : entVerts .triangle 1 2 = [0, 1] := rfl
  have m0 := mid 0 (by norm_num)
  have m1 := mid 1 (by norm_num)
  have m2 := mid 2 (by norm_num)
  have hd2 : ∀ j : Fin 2, v j ∈ P 2 3 := hdeg
  rw [Fin.sum_univ_two, coords_eval (hd2 0), coords_eval (hd2 1)] at m0 m1 m2
  norm_num [hw, e0, e1, e2, axis, psub, axisVertices, refVertex, refVerts, coords] at m0 m1 m2
  refine mtw_zero hdeg ha hn ?_ ?_ ?_
  · norm_num [coords]
    exact m2
  · norm_num [coords]
    exact m1
  · norm_num [coords]
    linarith

/-- The moments of the tangential component. -/
theorem tangent_values (ys : List (MvPolynomial ℕ ℝ)) (mp : String) :
    ∃ dofs, ((List.range (Cell.triangle.tdim + 1)).flatMap fun i => ys.map fun y =>
        (⟨"TangentIntegralMoment", .scalar y, (Cell.triangle.tdim - 1, i), some mp⟩ : MomentDof Fun)).mapM (momentDof .triangle) = some dofs ∧
      dofs.length = (Cell.triangle.tdim + 1) * ys.length ∧ (∀ d ∈ dofs, d.mapping = some mp) ∧ ∀ i ≤ 2, ∀ v,
      (entityFunctionals dofs (Cell.triangle.tdim - 1, i)).map (·.eval v) = ys.map fun y =>
        pairing1 .interval (comp ⟨.interval, Cell.triangle.tdim, (entityDomain .triangle (1, i)).v⟩
          (axis .interval (entityDomain .triangle (1, i)).v 0) v) y := by
  have hc : Simp .triangle := Or.inl rfl
  obtain ⟨dofs, hdofs⟩ := mapM_exists (f := momentDof .triangle) (l := (List.range (Cell.triangle.tdim + 1)).flatMap fun i => ys.map fun y =>
        (⟨"TangentIntegralMoment", .scalar y, (Cell.triangle.tdim - 1, i), some mp⟩ : MomentDof Fun)) (by
    intro mo hmo
    simp only [List.mem_flatMap, List.mem_range, List.mem_map] at hmo
    obtain ⟨i, hi, x, -, rfl⟩ := hmo
    obtain ⟨J, s, -, -, h⟩ := edge_moment hc (edge_distinct hc (i := i) hi) (some mp)
    obtain ⟨d, hd, -⟩ := h x
    exact ⟨d, hd⟩)
  refine ⟨dofs, hdofs, ?_, ?_, fun i hi v => ?_⟩
  · rw [← (mapM_forall hdofs).length_eq]
    simp [List.length_flatMap]
  · intro d hd
    obtain ⟨mo, hmo, h⟩ := forall₂_mem_left (mapM_forall hdofs) hd
    simp only [List.mem_flatMap, List.mem_range, List.mem_map] at hmo
    obtain ⟨i, hi, x, -, rfl⟩ := hmo
    unfold momentDof at h
    obtain ⟨w, -, h2⟩ := Option.bind_eq_some_iff.1 h
    obtain ⟨J, -, rfl⟩ := Option.map_eq_some_iff.1 h2
    rfl
  · refine entity_values hdofs (xs := ys) (h := fun x => ⟨"TangentIntegralMoment", .scalar x, (Cell.triangle.tdim - 1, i), some mp⟩) ?_ fun x hx d hd => ?_
    · exact filter_entities (dim := Cell.triangle.tdim - 1) ys (fun x i => ⟨"TangentIntegralMoment", .scalar x, (Cell.triangle.tdim - 1, i), some mp⟩)
          (fun _ _ => rfl) (Nat.lt_succ_iff.2 hi)
    · exact edge_value (c := .triangle) (Or.inl rfl) (edge_distinct hc (i := i) (Nat.lt_succ_iff.2 hi)) hd v

/-- What is true of the functionals: mapped cells fit together along the edges in the normal direction, and every
functional is pushed forward by the contravariant Piola map. -/
def MtwFunctionals (dofs : List (Dof ℝ (Field Cell.triangle.tdim))) : Prop :=
  NormalConform .triangle MTW2 dofs ∧ ∀ d ∈ dofs, d.mapping = some "contravariant"

/-- **C140** Mardal–Tai–Winther elements on triangles. -/
theorem mtw_created : Created (mtwTriangle "equispaced" 3) MTW2 9 MtwFunctionals := by
  have hc : Simp .triangle := Or.inl rfl
  obtain ⟨xs, x1, x2, x3⟩ := sub_lagrange (t := facetCell .triangle) (facetCell_simplex _) (classes := lagrangeClasses) rfl "NormalIntegralMoment" 1 (some "contravariant")
  obtain ⟨ys, y1, y2, y3⟩ := sub_lagrange (t := facetCell .triangle) (facetCell_simplex _) (classes := lagrangeClasses) rfl "TangentIntegralMoment" 0 (some "contravariant")
  replace x2 : lspan xs = P 1 1 := x2
  replace y2 : lspan ys = P 1 0 := y2
  have x4 : xs.length = 2 := x3
  have y4 : ys.length = 1 := y3
  obtain ⟨ds, d1, d2, d3, d4⟩ := facetOnly_values hc xs "contravariant"
  obtain ⟨es, e1, e2, e3, e4⟩ := tangent_values ys "contravariant"
  have hel : mtwTriangle "equispaced" 3 = ciarlet (mtwPolys.map (denoteVec ℝ 2)) (ds ++ es) := by
    unfold mtwTriangle momentElementWith
    rw [if_pos rfl, facetOnly_moments hc rfl x1, facetOnly_moments hc rfl y1]
    simp only [Option.bind_some]
    rw [d1, e1]
    rfl
  have hfun : ∀ i ≤ 2, ∀ v, (entityFunctionals (ds ++ es) (Cell.triangle.tdim - 1, i)).map (·.eval v) = _ ++ _ := fun i hi v => by
    rw [functionals_append, List.map_append, d4 i hi v, e4 i hi v]
  have key := created_of_unisolvent (S := mtwSub) (basis := mtwPolys.map (denoteVec ℝ 2)) (dofs := ds ++ es)
    (by
      have h : (ds ++ es).length = ds.length + es.length := List.length_append
      rw [x4] at d2
      rw [y4] at e2
      exact h.trans (by rw [d2, e2]; rfl)) mtw_independent ?_ ?_
  · obtain ⟨basis, dofs, fs, k1, k2, k3, k4, k5, k6, rfl⟩ := key
    refine ⟨basis, _, fs, hel.trans k1, k2, k3, k4, k5, k6, ?_, ?_⟩
    · refine normal_conform_of_trace (k := 3) (c := .triangle) (fc := .interval) (Or.inl rfl) (fun v hv => hv.1) (fun i _ => rfl) ?_
      intro v v' hv hv' i hi i' hi' heq
      replace hi : i ≤ 2 := Nat.lt_succ_iff.1 hi
      replace hi' : i' ≤ 2 := Nat.lt_succ_iff.1 hi'
      rw [hfun i hi v, hfun i' hi' v'] at heq
      have heq := (List.append_inj heq (by simp)).1
      rw [List.map_map, List.map_map] at heq
      have heq := List.map_inj_left.1 heq
      rw [← sub_eq_zero]
      have hm := Submodule.sub_mem _ (mtw_trace hv hi) (mtw_trace hv' hi')
      refine eq_zero_of_pairing (c := .interval) solid_interval hm (fs := xs) (by rw [x2]; exact hm) fun x hx => ?_
      rw [pairing1_comm, map_sub, sub_eq_zero]
      exact heq x hx
    · intro d hd
      rcases List.mem_append.1 hd with hd | hd
      · exact d3 d hd
      · exact e3 d hd
  · intro b hb
    exact mtw_mem b hb
  · intro v hv hz
    have hz' : ∀ i ≤ 2, ∀ r ∈ (entityFunctionals (ds ++ es) (Cell.triangle.tdim - 1, i)).map (·.eval v), r = 0 := by
      intro i _ r hr
      obtain ⟨d, hd, rfl⟩ := List.mem_map.1 hr
      exact hz d (List.mem_of_mem_filter hd)
    refine mtw_determined x2 y2 hv (fun i hi x hx => ?_) fun i hi y hy => ?_
    · refine hz' i hi _ ?_
      rw [hfun i hi v]
      exact List.mem_append_left _ (List.mem_map_of_mem (List.mem_map_of_mem hx))
    · refine hz' i hi _ ?_
      rw [hfun i hi v]
      exact List.mem_append_right _ (List.mem_map_of_mem hy)

/-- **C140** Other orders are refused. -/
theorem mtw_none (variant : String) {k : ℕ} (h : k ≠ 3) : mtwTriangle variant k = none := if_neg h

/-- The space is not a space of affine fields: a field of degree 3 of it. -/
example : MTW2 (denoteVec ℝ 2 (mtwPolys.getD 7 [])) :=
  mtw_mem _ (List.mem_map_of_mem (by simp [mtwPolys]))

end Verif.Families
