import Verif.Orthogonal.Fill
import Verif.Orthogonal.PropsIndex

/-!
# The tables satisfy the recurrences

The assignments of the loops hold as equations for the finished tables.
-/

set_option linter.unusedSectionVars false

namespace Verif.Orthogonal

variable {A : Type*} [CommRing A] [Algebra ℚ A]

@[congr] theorem addIf_congr {c : Prop} [Decidable c] {a b : A} (h : c → a = b) :
    addIf c a = addIf c b := by
  unfold addIf; split_ifs with hc
  · exact h hc
  · rfl

theorem addIf_eq {c : Prop} [Decidable c] {a : A} (h : ¬ c → a = 0) : addIf c a = a := by
  unfold addIf; split_ifs with hc
  · rfl
  · exact (h hc).symm

/-! ### Interval -/

theorem intervalTable_zero (x : A) (order derivs dx : ℕ) :
    intervalTable x order derivs dx 0 = if dx = 0 then 1 else 0 := by
  rw [intervalTable, fill_other]
  · rfl
  · rintro s hs ⟨-, h⟩
    obtain ⟨b, hb, rfl⟩ := List.mem_map.1 hs
    rw [mem_intervalLoop] at hb
    simp only at h
    omega

theorem intervalTable_eq (x : A) (order derivs dx i : ℕ) (hd : dx ≤ derivs) (h1 : 1 ≤ i)
    (h2 : i ≤ order) : intervalTable x order derivs dx i =
      intervalVal x (intervalTable x order derivs) dx i := by
  refine fill_eq (intervalLoop order derivs)
    (fun s => ⟨s.1, s.2, fun T => intervalVal x T s.1 s.2⟩) lt2 (intervalLoop_sorted _ _)
    lt2_irrefl lt2_asymm ?_ ?_ _ (dx, i) ((mem_intervalLoop _ _ _).2 ⟨hd, h1, h2⟩)
  · intro a _ b _ h h'
    exact Prod.ext h h'
  · rintro ⟨d, j⟩ ha T T' h h0
    rw [mem_intervalLoop] at ha
    simp only at ha
    have hr : ∀ d' j', d' ≤ derivs → j' ≤ order → (d' < d ∨ d' = d ∧ j' < j) →
        T d' j' = T' d' j' := by
      intro d' j' hd' hj' hlt
      by_cases hz : j' = 0
      · apply h0
        rintro ⟨e, f⟩ hb ⟨-, h⟩
        rw [mem_intervalLoop] at hb
        simp only at h hb
        omega
      · exact h (d', j') ((mem_intervalLoop _ _ _).2 (by simp only; omega)) hlt
    simp (disch := omega) only [intervalVal, hr]

/-! ### Triangle -/

theorem triTable_eq (x y : A) (order derivs dx dy p q : ℕ) (hd : dx + dy ≤ derivs)
    (hp : p + q ≤ order) : triRead (triTable x y order derivs) dx dy q p =
      if q = 0 then triVal0 x y (triRead (triTable x y order derivs)) dx dy p
      else triVal1 y (triRead (triTable x y order derivs)) dx dy p q := by
  refine fill_eq (triLoop order derivs) (triStep x y) lt4 (triLoop_sorted _ _)
    lt4_irrefl lt4_asymm ?_ ?_ _ (dx, dy, p, q) ((mem_triLoop _ _ _ _ _ _).2 ⟨hd, hp⟩)
  · rintro ⟨a, b, c, d⟩ _ ⟨a', b', c', d'⟩ _ h h'
    obtain ⟨rfl, rfl⟩ := triIndex_inj h
    obtain ⟨rfl, rfl⟩ := triIndex_inj h'
    rfl
  · rintro ⟨a, b, c, d⟩ ha T T' h -
    rw [mem_triLoop] at ha
    have hr : ∀ a' b' c' d', a' + b' ≤ derivs → c' + d' ≤ order →
        (a' < a ∨ a' = a ∧ (b' < b ∨ b' = b ∧ (c' < c ∨ c' = c ∧ d' < d))) →
        triRead T a' b' d' c' = triRead T' a' b' d' c' := by
      intro a' b' c' d' h1 h2 hlt
      exact h (a', b', c', d') ((mem_triLoop _ _ _ _ _ _).2 ⟨h1, h2⟩) hlt
    simp only [triStep]
    split_ifs with hq
    · unfold triVal0
      split_ifs
      · rfl
      · rfl
      · simp (disch := omega) only [hr]
    · simp (disch := omega) only [triVal1, hr]

/-! ### Tetrahedron -/

theorem tetTable_eq (x y z : A) (order derivs dx dy dz p q r : ℕ) (hd : dx + dy + dz ≤ derivs)
    (hp : p + q + r ≤ order) : tetRead (tetTable x y z order derivs) dx dy dz r q p =
      if r = 0 then
        if q = 0 then tetVal0 x y z (tetRead (tetTable x y z order derivs)) dx dy dz p
        else tetVal1 y z (tetRead (tetTable x y z order derivs)) dx dy dz p q
      else tetVal2 z (tetRead (tetTable x y z order derivs)) dx dy dz p q r := by
  refine fill_eq (tetLoop order derivs) (tetStep x y z) lt6 (tetLoop_sorted _ _)
    lt6_irrefl lt6_asymm ?_ ?_ _ (dx, dy, dz, p, q, r) ((mem_tetLoop _ _ _ _ _ _ _ _).2 ⟨hd, hp⟩)
  · rintro ⟨a, b, c, d, e, f⟩ _ ⟨a', b', c', d', e', f'⟩ _ h h'
    obtain ⟨rfl, rfl, rfl⟩ := tetIndex_inj h
    obtain ⟨rfl, rfl, rfl⟩ := tetIndex_inj h'
    rfl
  · rintro ⟨a, b, c, d, e, f⟩ ha T T' h -
    rw [mem_tetLoop] at ha
    have hr : ∀ a' b' c' d' e' f', a' + b' + c' ≤ derivs → d' + e' + f' ≤ order →
        (a' < a ∨ a' = a ∧ (b' < b ∨ b' = b ∧ (c' < c ∨ c' = c ∧ (d' < d ∨ d' = d ∧
          (e' < e ∨ e' = e ∧ f' < f))))) →
        tetRead T a' b' c' f' e' d' = tetRead T' a' b' c' f' e' d' := by
      intro a' b' c' d' e' f' h1 h2 hlt
      exact h (a', b', c', d', e', f') ((mem_tetLoop _ _ _ _ _ _ _ _).2 ⟨h1, h2⟩) hlt
    simp only [tetStep]
    split_ifs with hq
    · unfold tetVal0
      split_ifs
      · rfl
      · rfl
      · simp (disch := omega) only [hr]
    · simp (disch := omega) only [tetVal1, hr]
    · simp (disch := omega) only [tetVal2, hr]

/-! ### Pyramid -/

theorem pyrTable_eq (x y z w : A) (order derivs dx dy dz i j k : ℕ) (hd : dx + dy + dz ≤ derivs)
    (hi : i + k ≤ order) (hj : j + k ≤ order) :
    pyrRead order (pyrTable x y z w order derivs) dx dy dz i j k =
      if k = 0 then
        if j = 0 then pyrVal0 x z (pyrRead order (pyrTable x y z w order derivs)) dx dy dz i
        else if i ≥ j then
          pyrVal1 y w (pyrRead order (pyrTable x y z w order derivs)) dx dy dz i j
        else pyrVal2 y z (pyrRead order (pyrTable x y z w order derivs)) dx dy dz i j
      else pyrVal3 z (pyrRead order (pyrTable x y z w order derivs)) dx dy dz i j k := by
  refine fill_eq (pyrLoop order derivs) (pyrStep x y z w order) lt6 (pyrLoop_sorted _ _)
    lt6_irrefl lt6_asymm ?_ ?_ _ (dx, dy, dz, i, j, k)
    ((mem_pyrLoop _ _ _ _ _ _ _ _).2 ⟨hd, hi, hj⟩)
  · rintro ⟨a, b, c, d, e, f⟩ h1 ⟨a', b', c', d', e', f'⟩ h2 h h'
    rw [mem_pyrLoop] at h1 h2
    obtain ⟨rfl, rfl, rfl⟩ := tetIndex_inj h
    obtain ⟨rfl, rfl, rfl⟩ := pyrIndex_inj h1.2.1 h1.2.2 h2.2.1 h2.2.2 h'
    rfl
  · rintro ⟨a, b, c, d, e, f⟩ ha T T' h -
    rw [mem_pyrLoop] at ha
    have hr : ∀ a' b' c' d' e' f', a' + b' + c' ≤ derivs → d' + f' ≤ order → e' + f' ≤ order →
        (a' < a ∨ a' = a ∧ (b' < b ∨ b' = b ∧ (c' < c ∨ c' = c ∧ (d' < d ∨ d' = d ∧
          (e' < e ∨ e' = e ∧ f' < f))))) →
        pyrRead order T a' b' c' d' e' f' = pyrRead order T' a' b' c' d' e' f' := by
      intro a' b' c' d' e' f' h1 h2 h3 hlt
      exact h (a', b', c', d', e', f') ((mem_pyrLoop _ _ _ _ _ _ _ _).2 ⟨h1, h2, h3⟩) hlt
    simp only [pyrStep]
    split_ifs with hk hj' hij
    · unfold pyrVal0
      split_ifs
      · rfl
      · rfl
      · simp (disch := omega) only [hr]
    · unfold pyrVal1
      congr 1
      · congr 1
        · simp (disch := omega) only [hr]
        · congr 1
          apply List.map_congr_left
          intro u hu
          rw [List.mem_range] at hu
          simp (disch := omega) only [hr]
      · simp (disch := omega) only [hr]
    · simp (disch := omega) only [pyrVal2, hr]
    · simp (disch := omega) only [pyrVal3, hr]

end Verif.Orthogonal
