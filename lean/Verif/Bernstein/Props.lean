import Verif.Bernstein.Model
import Verif.Families.Count
import Verif.Families.Enrich
import Verif.Families.PropsRT
/-!
# Bernstein polynomials

C59: the polynomials are the multinomial terms of `(λ₀ + λ₁ + …)ⁿ`, so they are non-negative on the cell and sum to 1; there is
one for every multi-index; they are a basis of the polynomials of degree `n`.
-/

namespace Verif.Bernstein
open Verif.References Verif.Moments Verif.Functionals Verif.Elements Verif.FiniteElement Verif.Polysets Verif.Orthogonal
open Verif.Families
open MvPolynomial
open scoped Nat

/-! ### Coefficients -/

theorem foldl_mul (k m : ℕ) (o : ℚ) :
    (List.range' (k + 1) m).foldl (fun o (i : ℕ) => o * (i : ℚ)) o = o * ((k + m)! / k !) := by
  induction m with
  | zero => simp [Nat.factorial_ne_zero]
  | succ m ih =>
    rw [List.range'_concat, List.foldl_append, ih]
    simp only [List.foldl_cons, List.foldl_nil, one_mul]
    rw [show k + (m + 1) = (k + m) + 1 by ring, Nat.factorial_succ]
    push_cast
    ring

theorem foldl_div (m : ℕ) (o : ℚ) :
    (List.range' 1 m).foldl (fun o (i : ℕ) => o / (i : ℚ)) o = o / m ! := by
  induction m with
  | zero => simp
  | succ m ih =>
    rw [List.range'_concat, List.foldl_append, ih]
    simp only [List.foldl_cons, List.foldl_nil, one_mul]
    rw [Nat.factorial_succ, div_div]
    push_cast
    congr 1
    ring

/-- **C59** `single_choose` is the binomial coefficient. -/
theorem singleChoose_eq {n k : ℕ} (h : k ≤ n) : singleChoose n k = n.choose k := by
  rw [singleChoose, foldl_div, foldl_mul, Nat.cast_choose ℚ h, show k + (n - k) = n by omega]
  have := Nat.factorial_ne_zero k
  have := Nat.factorial_ne_zero (n - k)
  field_simp

/-- The multinomial coefficient. -/
def multinom (p : List ℕ) : ℚ := (p.sum)! / (p.map fun i => (i ! : ℚ)).prod

theorem multinom_pos (p : List ℕ) : 0 < multinom p := by
  refine div_pos (by exact_mod_cast Nat.factorial_pos _) (List.prod_pos ?_)
  intro a ha
  obtain ⟨i, -, rfl⟩ := List.mem_map.1 ha
  exact_mod_cast Nat.factorial_pos _

theorem multinom_cons (a : ℕ) (p : List ℕ) : multinom (a :: p) = (a + p.sum).choose a * multinom p := by
  rw [multinom, multinom, List.sum_cons, List.map_cons, List.prod_cons, Nat.cast_choose ℚ (by omega),
    show a + p.sum - a = p.sum by omega]
  have h1 := Nat.factorial_ne_zero a
  have h2 := Nat.factorial_ne_zero p.sum
  have h3 : (p.map fun i => (i ! : ℚ)).prod ≠ 0 := by
    refine List.prod_ne_zero fun h => ?_
    obtain ⟨i, -, h⟩ := List.mem_map.1 h
    exact Nat.factorial_ne_zero i (by exact_mod_cast h)
  field_simp

/-- **C59** `choose` is the multinomial coefficient. -/
theorem choose_eq (p : List ℕ) : choose p.sum p = multinom p := by
  have key : ∀ (p : List ℕ) (o : ℚ),
      (p.foldl (fun (s : ℚ × ℕ) p => (s.1 * singleChoose s.2 p, s.2 - p)) (o, p.sum)).1 = o * multinom p := by
    intro p
    induction p with
    | nil => intro o; simp [multinom]
    | cons a p ih =>
      intro o
      rw [List.foldl_cons, List.sum_cons, singleChoose_eq (by omega), show a + p.sum - a = p.sum by omega, ih,
        multinom_cons]
      ring
  exact (key p 1).trans (one_mul _)

example : choose 5 [2, 2, 1] = 30 := by
  have := choose_eq [2, 2, 1]
  rw [show ([2, 2, 1] : List ℕ).sum = 5 from rfl] at this
  rw [this]
  norm_num [multinom, Nat.factorial]

/-! ### Powers -/

/-- Dimensions of cells. -/
def Dim (d : ℕ) : Prop := d = 1 ∨ d = 2 ∨ d = 3

/-- **C59** There is a polynomial for every multi-index. -/
theorem mem_bernPowers {n d : ℕ} (hd : Dim d) (p : List ℕ) :
    p ∈ bernPowers n d ↔ p.length = d + 1 ∧ p.sum = n := by
  rcases hd with rfl | rfl | rfl
  · simp only [bernPowers, List.mem_map, List.mem_range]
    constructor
    · rintro ⟨i, hi, rfl⟩
      simp; omega
    · rintro ⟨h1, h2⟩
      obtain ⟨a, b, rfl⟩ := List.length_eq_two.1 h1
      simp only [List.sum_cons, List.sum_nil] at h2
      exact ⟨b, by omega, by rw [show n - b = a by omega]⟩
  · simp only [bernPowers, List.mem_flatMap, List.mem_map, List.mem_range]
    constructor
    · rintro ⟨i, hi, j, hj, rfl⟩
      simp; omega
    · rintro ⟨h1, h2⟩
      obtain ⟨a, b, c, rfl⟩ := List.length_eq_three.1 h1
      simp only [List.sum_cons, List.sum_nil] at h2
      exact ⟨c, by omega, b, by omega, by rw [show n - c - b = a by omega]⟩
  · simp only [bernPowers, List.mem_flatMap, List.mem_map, List.mem_range]
    constructor
    · rintro ⟨i, hi, j, hj, k, hk, rfl⟩
      simp; omega
    · rintro ⟨h1, h2⟩
      match p, h1 with
      | [a, b, c, e], _ =>
        simp only [List.sum_cons, List.sum_nil] at h2
        exact ⟨e, by omega, c, by omega, b, by omega, by rw [show n - e - c - b = a by omega]⟩

/-- **C59** No multi-index is listed twice. -/
theorem nodup_bernPowers {n d : ℕ} (hd : Dim d) : (bernPowers n d).Nodup := by
  rcases hd with rfl | rfl | rfl
  · exact List.Nodup.map_on (fun a _ b _ h => by simp at h; exact h.2) List.nodup_range
  · refine nodup_flatMap_of_key (fun p : List ℕ => p.getD 2 0) id (fun _ _ h => h) List.nodup_range (fun i _ => ?_) ?_
    · exact List.Nodup.map_on (fun a _ b _ h => by simp at h; exact h.2) List.nodup_range
    · intro i _ p hp
      obtain ⟨j, -, rfl⟩ := List.mem_map.1 hp
      rfl
  · refine nodup_flatMap_of_key (fun p : List ℕ => p.getD 3 0) id (fun _ _ h => h) List.nodup_range (fun i _ => ?_) ?_
    · refine nodup_flatMap_of_key (fun p : List ℕ => p.getD 2 0) id (fun _ _ h => h) List.nodup_range (fun j _ => ?_) ?_
      · exact List.Nodup.map_on (fun a _ b _ h => by simp at h; exact h.2) List.nodup_range
      · intro j _ p hp
        obtain ⟨k, -, rfl⟩ := List.mem_map.1 hp
        rfl
    · intro i _ p hp
      obtain ⟨j, -, hp⟩ := List.mem_flatMap.1 hp
      obtain ⟨k, -, rfl⟩ := List.mem_map.1 hp
      rfl

/-! ### The polynomials -/

/-- The first barycentric coordinate. -/
noncomputable def lam0 (d : ℕ) : MvPolynomial ℕ ℝ := 1 - ∑ i ∈ Finset.range d, X i

/-- The Bernstein polynomial of a multi-index. -/
noncomputable def bernP (p : List ℕ) : MvPolynomial ℕ ℝ :=
  C (multinom p : ℝ) * (lam0 (p.length - 1) ^ p.headD 0 * denoteMono ℝ p.tail)

theorem bernTerm_eq {n d : ℕ} (hd : Dim d) {p : List ℕ} (h1 : p.length = d + 1) (h2 : p.sum = n) :
    bernTerm n d p = bernP p := by
  have e := choose_eq p
  rw [h2] at e
  rcases hd with rfl | rfl | rfl
  · obtain ⟨a, b, rfl⟩ := List.length_eq_two.1 h1
    simp only [bernTerm, lambdas, e, bernP, denoteMono, monoFrom, lam0, List.zip_cons_cons, List.zip_nil_right,
      List.foldl_cons, List.foldl_nil, List.headD_cons, List.tail_cons, List.length_cons, List.length_nil]
    simp
    ring
  · obtain ⟨a, b, c, rfl⟩ := List.length_eq_three.1 h1
    simp only [bernTerm, lambdas, e, bernP, denoteMono, monoFrom, lam0, List.zip_cons_cons, List.zip_nil_right,
      List.foldl_cons, List.foldl_nil, List.headD_cons, List.tail_cons, List.length_cons, List.length_nil]
    simp [Finset.sum_range_succ]
    ring
  · match p, h1 with
    | [a, b, c, f], _ =>
      simp only [bernTerm, lambdas, e, bernP, denoteMono, monoFrom, lam0, List.zip_cons_cons, List.zip_nil_right,
        List.foldl_cons, List.foldl_nil, List.headD_cons, List.tail_cons, List.length_cons, List.length_nil]
      simp [Finset.sum_range_succ]
      ring

/-- **C59** `bernstein_polynomials` lists the Bernstein polynomials of all multi-indices. -/
theorem bernstein_eq {n d : ℕ} (hd : Dim d) : bernstein n d = (bernPowers n d).map bernP :=
  List.map_congr_left fun p hp => by
    obtain ⟨h1, h2⟩ := (mem_bernPowers hd p).1 hp
    exact bernTerm_eq hd h1 h2

/-- **C59** The polynomials are not negative on the cell. -/
theorem bernstein_nonneg {n d : ℕ} (hd : Dim d) {z : ℕ → ℝ} (h0 : ∀ i < d, 0 ≤ z i)
    (h1 : ∑ i ∈ Finset.range d, z i ≤ 1) : ∀ b ∈ bernstein n d, 0 ≤ eval z b := by
  intro b hb
  rw [bernstein_eq hd] at hb
  obtain ⟨p, hp, rfl⟩ := List.mem_map.1 hb
  obtain ⟨hl, -⟩ := (mem_bernPowers hd p).1 hp
  rw [bernP, map_mul, map_mul, eval_C, map_pow]
  refine mul_nonneg (by exact_mod_cast (multinom_pos p).le) (mul_nonneg (pow_nonneg ?_ _) ?_)
  · rw [hl, Nat.add_sub_cancel, lam0, map_sub, map_one, map_sum]
    simpa using h1
  · have key : ∀ (m : List ℕ) (s : ℕ), s + m.length ≤ d → 0 ≤ eval z (monoFrom ℝ s m) := by
      intro m
      induction m with
      | nil => intro s _; simp [monoFrom]
      | cons a m ih =>
        intro s hs
        rw [List.length_cons] at hs
        rw [monoFrom, map_mul, map_pow, eval_X]
        exact mul_nonneg (pow_nonneg (h0 s (by omega)) _) (ih _ (by omega))
    refine key _ 0 ?_
    rw [List.length_tail, hl]
    omega

/-- The sum over the last powers. -/
theorem sum_level (n : ℕ) (a b : MvPolynomial ℕ ℝ) :
    ∑ j ∈ Finset.range (n + 1), C ((n.choose j : ℚ) : ℝ) * (a ^ (n - j) * b ^ j) = (a + b) ^ n := by
  rw [add_comm a b, add_pow]
  refine Finset.sum_congr rfl fun j _ => ?_
  simp
  ring

theorem multinom_two {n j : ℕ} (h : j ≤ n) : multinom [n - j, j] = n.choose j := by
  rw [multinom_cons, multinom_cons]
  simp only [List.sum_cons, List.sum_nil, multinom]
  rw [show n - j + (j + 0) = n by omega, Nat.choose_symm h]
  simp

theorem multinom_perm {p q : List ℕ} (h : p.Perm q) : multinom p = multinom q := by
  rw [multinom, multinom, h.sum_eq, (h.map _).prod_eq]

theorem multinom_three {n i j : ℕ} (h : i + j ≤ n) :
    multinom [n - i - j, j, i] = n.choose i * (n - i).choose j := by
  rw [multinom_perm (q := [i, n - i - j, j]) (by
    simpa using (List.perm_append_comm (l₁ := [n - i - j, j]) (l₂ := [i]))), multinom_cons, multinom_two (by omega)]
  simp only [List.sum_cons, List.sum_nil]
  rw [show i + (n - i - j + (j + 0)) = n by omega]

theorem multinom_four {n i j k : ℕ} (h : i + j + k ≤ n) :
    multinom [n - i - j - k, k, j, i] = n.choose i * ((n - i).choose j * (n - i - j).choose k) := by
  rw [multinom_perm (q := [i, n - i - j - k, k, j]) (by
    simpa using (List.perm_append_comm (l₁ := [n - i - j - k, k, j]) (l₂ := [i]))), multinom_cons,
    multinom_three (n := n - i) (i := j) (j := k) (by omega)]
  simp only [List.sum_cons, List.sum_nil]
  rw [show i + (n - i - j - k + (k + (j + 0))) = n by omega]

theorem sum_range_map {M : Type} [AddCommMonoid M] (m : ℕ) (f : ℕ → M) :
    ((List.range m).map f).sum = ∑ i ∈ Finset.range m, f i := by
  induction m with
  | zero => simp
  | succ m ih => rw [List.range_succ, List.map_append, List.sum_append, ih, Finset.sum_range_succ]; simp

theorem sum_range_flatMap {M κ : Type} [AddCommMonoid M] (m : ℕ) (g : ℕ → List κ) (f : κ → M) :
    (((List.range m).flatMap g).map f).sum = ∑ i ∈ Finset.range m, ((g i).map f).sum := by
  induction m with
  | zero => simp
  | succ m ih =>
    rw [List.range_succ, List.flatMap_append, List.map_append, List.sum_append, ih, Finset.sum_range_succ]; simp

/-- **C59** The polynomials sum to 1. -/
theorem bernstein_sum {n d : ℕ} (hd : Dim d) : (bernstein n d).sum = 1 := by
  rw [bernstein_eq hd]
  rcases hd with rfl | rfl | rfl
  · rw [bernPowers, List.map_map, sum_range_map]
    trans ∑ j ∈ Finset.range (n + 1), C ((n.choose j : ℚ) : ℝ) * (lam0 1 ^ (n - j) * X 0 ^ j)
    · refine Finset.sum_congr rfl fun j hj => ?_
      rw [Finset.mem_range] at hj
      simp [bernP, multinom_two (show j ≤ n by omega), denoteMono, monoFrom]
    · rw [sum_level]
      simp [lam0]
  · rw [bernPowers, sum_range_flatMap]
    trans ∑ i ∈ Finset.range (n + 1), C ((n.choose i : ℚ) : ℝ) * ((lam0 2 + X 0) ^ (n - i) * X 1 ^ i)
    · refine Finset.sum_congr rfl fun i hi => ?_
      rw [Finset.mem_range] at hi
      rw [← sum_level, List.map_map, sum_range_map, Finset.sum_mul, Finset.mul_sum, show n + 1 - i = n - i + 1 by omega]
      refine Finset.sum_congr rfl fun j hj => ?_
      rw [Finset.mem_range] at hj
      simp [bernP, multinom_three (show i + j ≤ n by omega), denoteMono, monoFrom]
      ring
    · rw [sum_level]
      simp [lam0, Finset.sum_range_succ]
      ring
  · rw [bernPowers, sum_range_flatMap]
    trans ∑ i ∈ Finset.range (n + 1), C ((n.choose i : ℚ) : ℝ) * ((lam0 3 + X 0 + X 1) ^ (n - i) * X 2 ^ i)
    · refine Finset.sum_congr rfl fun i hi => ?_
      rw [Finset.mem_range] at hi
      rw [← sum_level, sum_range_flatMap, Finset.sum_mul, Finset.mul_sum, show n + 1 - i = n - i + 1 by omega]
      refine Finset.sum_congr rfl fun j hj => ?_
      rw [Finset.mem_range] at hj
      rw [← sum_level, List.map_map, sum_range_map, Finset.sum_mul, Finset.mul_sum, Finset.sum_mul, Finset.mul_sum,
        show n - i + 1 - j = n - i - j + 1 by omega]
      refine Finset.sum_congr rfl fun k hk => ?_
      rw [Finset.mem_range] at hk
      simp [bernP, multinom_four (show i + j + k ≤ n by omega), denoteMono, monoFrom]
      ring
    · rw [sum_level]
      simp [lam0, Finset.sum_range_succ]
      ring

/-! ### A basis -/

theorem lam0_mem (d : ℕ) : lam0 d ∈ P d 1 :=
  Submodule.sub_mem _ (one_mem (by norm_num)) (Submodule.sum_mem _ fun _ hi => X_mem (Finset.mem_range.1 hi))

theorem bernP_mem {n d : ℕ} {p : List ℕ} (h1 : p.length = d + 1) (h2 : p.sum = n) : bernP p ∈ P d n := by
  obtain _ | ⟨a, m⟩ := p
  · cases h1
  simp only [List.length_cons, Nat.add_right_cancel_iff] at h1
  rw [List.sum_cons] at h2
  rw [bernP, C_mul']
  refine Submodule.smul_mem _ _ ?_
  have := P_mul (P_pow (lam0_mem d) a) (denoteMono_mem (k := (m.sum : ℤ)) h1 le_rfl)
  rw [show ((n : ℕ) : ℤ) = a + m.sum by rw [← h2]; push_cast; ring]
  simpa [h1] using this

/-- **C59** The polynomials are linearly independent. -/
theorem bernstein_independent {n d : ℕ} (hd : Dim d) : Independent ℝ (bernstein n d) := by
  rw [bernstein_eq hd]
  have hc : ∀ p : List ℕ, ∀ t : ℕ →₀ ℕ, coeff t (bernP p) =
      (multinom p : ℝ) * if expo 0 p.tail ≤ t then coeff (t - expo 0 p.tail) (lam0 (p.length - 1) ^ p.headD 0) else 0 := by
    intro p t
    rw [bernP, coeff_C_mul, denoteMono, monoFrom_eq, coeff_mul_monomial']
    simp
  refine linearIndependent_of_triangular _ (fun i : Fin ((bernPowers n d).map bernP).length =>
    lcoeff ℝ (expo 0 ((bernPowers n d)[i.val]'(by simpa using i.2)).tail))
    (fun i => ((bernPowers n d)[i.val]'(by simpa using i.2)).tail.sum) ?_ ?_
  · intro i
    have hp : (multinom ((bernPowers n d)[i.val]'(by simpa using i.2)) : ℝ) ≠ 0 := by
      exact_mod_cast (multinom_pos _).ne'
    simp only [Fin.getElem_fin, List.getElem_map, lcoeff_apply, hc, le_refl, if_true, tsub_self]
    refine mul_ne_zero hp ?_
    rw [← constantCoeff_eq, map_pow, lam0]
    simp
  · intro i j hij h
    simp only [Fin.getElem_fin, List.getElem_map, lcoeff_apply, hc] at h
    have hle : expo 0 ((bernPowers n d)[j.val]'(by simpa using j.2)).tail ≤
        expo 0 ((bernPowers n d)[i.val]'(by simpa using i.2)).tail := by
      by_contra hn
      simp [hn] at h
    obtain ⟨r, hr⟩ := exists_add_of_le hle
    have hs := congrArg Finsupp.degree hr
    rw [map_add, expo_sum, expo_sum] at hs
    refine lt_of_le_of_ne (by omega) fun he => hij ?_
    have hr0 : r = 0 := (Finsupp.degree_eq_zero_iff r).1 (by omega)
    rw [hr0, add_zero] at hr
    obtain ⟨a1, a2⟩ := (mem_bernPowers (n := n) hd _).1 (List.getElem_mem (l := bernPowers n d) (by simpa using i.2))
    obtain ⟨b1, b2⟩ := (mem_bernPowers (n := n) hd _).1 (List.getElem_mem (l := bernPowers n d) (by simpa using j.2))
    have ht := expo_inj (by rw [List.length_tail, List.length_tail, a1, b1]) hr
    have heq : (bernPowers n d)[i.val]'(by simpa using i.2) = (bernPowers n d)[j.val]'(by simpa using j.2) := by
      revert ht a1 a2 b1 b2
      generalize (bernPowers n d)[i.val]'(by simpa using i.2) = p
      generalize (bernPowers n d)[j.val]'(by simpa using j.2) = q
      intro a1 a2 b1 b2 ht
      obtain _ | ⟨a, p⟩ := p
      · cases a1
      obtain _ | ⟨b, q⟩ := q
      · cases b1
      simp only [List.tail_cons] at ht
      subst ht
      simp only [List.sum_cons] at a2 b2
      rw [show a = b by omega]
    exact Fin.ext ((List.Nodup.getElem_inj_iff (nodup_bernPowers hd)).1 heq)

/-- Independent vectors of a space with a basis of the same size span it. -/
theorem lspan_of_length {V : Type} [AddCommGroup V] [Module ℝ V] {a b : List V} (ha : Independent ℝ a) (hb : Independent ℝ b)
    (hl : a.length = b.length) (hle : lspan a ≤ lspan b) : lspan a = lspan b := by
  have hr : ∀ l : List V, lspan l = Submodule.span ℝ (Set.range fun i : Fin l.length => l[i]) := by
    intro l
    rw [lspan]
    congr 1
    ext v
    simp only [Set.mem_range, Set.mem_ofPred_eq, Fin.getElem_fin]
    exact ⟨fun h => by obtain ⟨i, hi, rfl⟩ := List.getElem_of_mem h; exact ⟨⟨i, hi⟩, rfl⟩,
      fun ⟨i, hi⟩ => hi ▸ List.getElem_mem _⟩
  have : FiniteDimensional ℝ (lspan b) := by
    rw [hr]
    exact FiniteDimensional.span_of_finite ℝ (Set.finite_range _)
  refine Submodule.eq_of_le_of_finrank_eq hle ?_
  rw [hr, hr, finrank_span_eq_card ha, finrank_span_eq_card hb, Fintype.card_fin, Fintype.card_fin, hl]

theorem bernPowers_length {n d : ℕ} (hd : Dim d) {l : List Mono} (hl : polySet d (n : ℤ) = some l) :
    (bernPowers n d).length = l.length := by
  obtain ⟨l', h1, h2, h3⟩ := polySet_spec d hd n
  obtain rfl : l = l' := Option.some.inj (hl.symm.trans h1)
  have : (bernPowers n d).map List.tail |>.Perm l := by
    refine (List.perm_ext_iff_of_nodup (List.Nodup.map_on ?_ (nodup_bernPowers hd)) h2).2 fun m => ?_
    · intro p hp q hq h
      obtain ⟨a1, a2⟩ := (mem_bernPowers hd p).1 hp
      obtain ⟨b1, b2⟩ := (mem_bernPowers hd q).1 hq
      obtain _ | ⟨a, p⟩ := p
      · cases a1
      obtain _ | ⟨b, q⟩ := q
      · cases b1
      simp only [List.tail_cons] at h
      subst h
      simp only [List.sum_cons] at a2 b2
      rw [show a = b by omega]
    · rw [h3, List.mem_map]
      constructor
      · rintro ⟨p, hp, rfl⟩
        obtain ⟨a1, a2⟩ := (mem_bernPowers hd p).1 hp
        obtain _ | ⟨a, p⟩ := p
        · cases a1
        simp only [List.sum_cons, List.length_cons, List.tail_cons] at a1 a2 ⊢
        omega
      · rintro ⟨a, b⟩
        refine ⟨(n - m.sum) :: m, (mem_bernPowers hd _).2 ⟨by simp [a], ?_⟩, rfl⟩
        rw [List.sum_cons]
        omega
  simpa using this.length_eq

/-- **C59** The polynomials span the polynomials of degree `n`. -/
theorem bernstein_span {n d : ℕ} (hd : Dim d) : lspan (bernstein n d) = P d n := by
  obtain ⟨l, h1, h2⟩ := polySet_lspan hd n
  obtain ⟨l', h3, h4, h5⟩ := polySet_spec d hd n
  obtain rfl : l = l' := Option.some.inj (h1.symm.trans h3)
  rw [← h2]
  refine lspan_of_length (bernstein_independent hd) (independent_monos ℝ h4 fun m hm => ((h5 m).1 hm).1) ?_ ?_
  · rw [bernstein, List.length_map, List.length_map, bernPowers_length hd h1]
  · rw [h2, lspan, Submodule.span_le]
    intro v hv
    have hv : v ∈ bernstein n d := hv
    rw [bernstein_eq hd] at hv
    obtain ⟨p, hp, rfl⟩ := List.mem_map.1 hv
    obtain ⟨a, b⟩ := (mem_bernPowers hd p).1 hp
    exact bernP_mem a b

end Verif.Bernstein
