import Verif.Quadrature.Exact
/-! # Quadrature properties (C10–C13) -/

namespace Verif.Quadrature

/-! ## C10 -/

theorem sum_weights_equispaced (m : ℕ) (φ : ℕ → ℝ) :
    ∑ i ∈ Finset.range (m + 2), (if i = 0 ∨ i = m + 2 - 1 then 1 / (2 * (((m + 2 : ℕ) : ℝ) - 1))
      else 1 / (((m + 2 : ℕ) : ℝ) - 1)) * φ i =
    (∑ i ∈ Finset.range (m + 2), φ i) / (m + 1) - (φ 0 + φ (m + 1)) / (2 * (m + 1)) := by
  have hm : (m : ℝ) + 1 ≠ 0 := by positivity
  have hc : ((m + 2 : ℕ) : ℝ) - 1 = m + 1 := by push_cast; ring
  rw [hc]
  rw [Finset.sum_range_succ, Finset.sum_range_succ', Finset.sum_range_succ, Finset.sum_range_succ']
  have h1 : ∑ k ∈ Finset.range m, (if k + 1 = 0 ∨ k + 1 = m + 2 - 1 then 1 / (2 * ((m : ℝ) + 1))
      else 1 / ((m : ℝ) + 1)) * φ (k + 1) = (∑ k ∈ Finset.range m, φ (k + 1)) / (m + 1) := by
    rw [Finset.sum_div]
    refine Finset.sum_congr rfl fun k hk => ?_
    have : k < m := Finset.mem_range.1 hk
    rw [if_neg (by omega)]
    field_simp
  rw [h1, if_pos (by simp), if_pos (by simp)]
  field_simp
  ring

/-- C10: for every `n ≥ 2` the equispaced rule is well formed, starts at 0, has equal steps
`1/(n-1)`, and is exact for every polynomial of degree at most 1. -/
theorem equispaced_exact (n : ℕ) (hn : 2 ≤ n) :
    ∃ pts wts, equispaced n = .ok (pts, wts) ∧ WellFormed pts wts n ∧
      (∀ i < n, pts[i]? = some ((i : ℝ) / (n - 1))) ∧ ExactTo pts wts 1 := by
  obtain ⟨m, rfl⟩ : ∃ m, n = m + 2 := ⟨n - 2, by omega⟩
  have hc : ((m + 2 : ℕ) : ℝ) - 1 = m + 1 := by push_cast; ring
  have hm : (0 : ℝ) < (m : ℝ) + 1 := by positivity
  refine ⟨_, _, by rw [equispaced, if_neg (by omega)], ?_, ?_, ?_⟩
  · refine ⟨by simp, by simp, ?_, ?_, ?_⟩
    · rw [List.pairwise_map]
      refine List.Pairwise.imp ?_ (List.pairwise_lt_range)
      intro a b hab
      rw [hc]
      gcongr
    · intro x hx
      obtain ⟨i, hi, rfl⟩ := List.mem_map.1 hx
      rw [List.mem_range] at hi
      rw [hc]
      refine ⟨by positivity, ?_⟩
      rw [div_le_one hm]
      have : i ≤ m + 1 := by omega
      exact_mod_cast this
    · intro w hw
      obtain ⟨i, hi, rfl⟩ := List.mem_map.1 hw
      rw [hc]
      split <;> positivity
  · intro i hi
    simp [hi]
  · refine exactTo_of_monomials fun k hk => ?_
    rw [quadValue_map_range, sum_weights_equispaced]
    interval_cases k
    · simp
      field_simp
      ring
    · simp only [pow_one, hc]
      rw [← Finset.sum_div]
      have hs : ∑ i ∈ Finset.range (m + 2), (i : ℝ) = (m + 2) * (m + 1) / 2 := by
        have h2 := Finset.sum_range_id_mul_two (m + 2)
        have h3 : (∑ i ∈ Finset.range (m + 2), (i : ℝ)) * 2 = ((m + 2 : ℕ) : ℝ) * (m + 1) := by
          rw [show m + 2 - 1 = m + 1 by omega] at h2
          have h4 := congrArg (fun z : ℕ => (z : ℝ)) h2
          push_cast at h4 ⊢
          exact h4
        push_cast at h3
        linarith
      rw [hs]
      push_cast
      field_simp
      ring

/-- C10: `n = 1` does not give a rule of numbers, and `n = 0` gives the empty rule. -/
theorem equispaced_small : equispaced 1 = .error .notANumber ∧ equispaced 0 = .ok ([], []) := by
  simp [equispaced]

example : (2 : ℕ) ≤ 5 := by decide

/-! ## C11 -/

theorem sq7 : (√7 : ℝ) ^ 2 = 7 := Real.sq_sqrt (by norm_num)
theorem sq15 : (√15 : ℝ) ^ 2 = 15 := Real.sq_sqrt (by norm_num)
theorem sq3 : (√3 : ℝ) ^ 2 = 3 := Real.sq_sqrt (by norm_num)
theorem sq6 : (√6 : ℝ) ^ 2 = 6 := Real.sq_sqrt (by norm_num)
theorem sq5 : (√5 : ℝ) ^ 2 = 5 := Real.sq_sqrt (by norm_num)

theorem sqrt5_div_sqrt3 : (2 * √5 / √3 : ℝ) = 2 * √15 / 3 := by
  have h15 : (√15 : ℝ) = √3 * √5 := by
    rw [← Real.sqrt_mul (by norm_num)]; norm_num
  have h3 : (√3 : ℝ) ≠ 0 := by positivity
  rw [h15]
  field_simp
  linear_combination (-1) * sq3

theorem wf4 (r : ℝ) (h0 : 0 < r) (h1 : r < 1) :
    WellFormed [0, (1 - r) / 2, (1 + r) / 2, 1] [1 / 12, 5 / 12, 5 / 12, 1 / 12] 4 := by
  refine ⟨rfl, rfl, ?_, ?_, ?_⟩
  · simp only [List.pairwise_cons, List.mem_cons, List.not_mem_nil, or_false, forall_eq_or_imp,
      forall_eq, List.Pairwise.nil, and_true, IsEmpty.forall_iff, implies_true]
    refine ⟨⟨?_, ?_, ?_⟩, ⟨?_, ?_⟩, ?_⟩ <;> linarith
  · simp only [List.mem_cons, List.not_mem_nil, or_false, forall_eq_or_imp, forall_eq]
    refine ⟨⟨?_, ?_⟩, ⟨?_, ?_⟩, ⟨?_, ?_⟩, ⟨?_, ?_⟩⟩ <;> linarith
  · simp only [List.mem_cons, List.not_mem_nil, or_false, forall_eq_or_imp, forall_eq]
    norm_num

theorem wf5 (r : ℝ) (h0 : 0 < r) (h1 : r < 1) :
    WellFormed [0, (1 - r) / 2, 1 / 2, (1 + r) / 2, 1]
      [1 / 20, 49 / 180, 16 / 45, 49 / 180, 1 / 20] 5 := by
  refine ⟨rfl, rfl, ?_, ?_, ?_⟩
  · simp only [List.pairwise_cons, List.mem_cons, List.not_mem_nil, or_false, forall_eq_or_imp,
      forall_eq, List.Pairwise.nil, and_true, IsEmpty.forall_iff, implies_true]
    refine ⟨⟨?_, ?_, ?_, ?_⟩, ⟨?_, ?_, ?_⟩, ⟨?_, ?_⟩, ?_⟩ <;> linarith
  · simp only [List.mem_cons, List.not_mem_nil, or_false, forall_eq_or_imp, forall_eq]
    refine ⟨⟨?_, ?_⟩, ⟨?_, ?_⟩, ⟨?_, ?_⟩, ⟨?_, ?_⟩, ⟨?_, ?_⟩⟩ <;> linarith
  · simp only [List.mem_cons, List.not_mem_nil, or_false, forall_eq_or_imp, forall_eq]
    norm_num

theorem wf6 (s a b : ℝ) (h0 : 0 < b) (h1 : b < a) (h2 : a < 1) (hs : 0 < s) (hs' : s < 14) :
    WellFormed [0, (1 - a) / 2, (1 - b) / 2, (1 + b) / 2, (1 + a) / 2, 1]
      [1 / 30, (14 - s) / 60, (14 + s) / 60, (14 + s) / 60, (14 - s) / 60, 1 / 30] 6 := by
  refine ⟨rfl, rfl, ?_, ?_, ?_⟩
  · simp only [List.pairwise_cons, List.mem_cons, List.not_mem_nil, or_false, forall_eq_or_imp,
      forall_eq, List.Pairwise.nil, and_true, IsEmpty.forall_iff, implies_true]
    refine ⟨⟨?_, ?_, ?_, ?_, ?_⟩, ⟨?_, ?_, ?_, ?_⟩, ⟨?_, ?_, ?_⟩, ⟨?_, ?_⟩, ?_⟩ <;> linarith
  · simp only [List.mem_cons, List.not_mem_nil, or_false, forall_eq_or_imp, forall_eq]
    refine ⟨⟨?_, ?_⟩, ⟨?_, ?_⟩, ⟨?_, ?_⟩, ⟨?_, ?_⟩, ⟨?_, ?_⟩, ⟨?_, ?_⟩⟩ <;> linarith
  · simp only [List.mem_cons, List.not_mem_nil, or_false, forall_eq_or_imp, forall_eq]
    refine ⟨?_, ?_, ?_, ?_, ?_, ?_⟩ <;> linarith

theorem wf7 (s a b : ℝ) (h0 : 0 < b) (h1 : b < a) (h2 : a < 1) (hs : 0 < s) (hs' : s < 17) :
    WellFormed [0, (1 - a) / 2, (1 - b) / 2, 1 / 2, (1 + b) / 2, (1 + a) / 2, 1]
      [1 / 42, (124 - 7 * s) / 700, (124 + 7 * s) / 700, 128 / 525, (124 + 7 * s) / 700,
        (124 - 7 * s) / 700, 1 / 42] 7 := by
  refine ⟨rfl, rfl, ?_, ?_, ?_⟩
  · simp only [List.pairwise_cons, List.mem_cons, List.not_mem_nil, or_false, forall_eq_or_imp,
      forall_eq, List.Pairwise.nil, and_true, IsEmpty.forall_iff, implies_true]
    refine ⟨⟨?_, ?_, ?_, ?_, ?_, ?_⟩, ⟨?_, ?_, ?_, ?_, ?_⟩, ⟨?_, ?_, ?_, ?_⟩, ⟨?_, ?_, ?_⟩,
      ⟨?_, ?_⟩, ?_⟩ <;> linarith
  · simp only [List.mem_cons, List.not_mem_nil, or_false, forall_eq_or_imp, forall_eq]
    refine ⟨⟨?_, ?_⟩, ⟨?_, ?_⟩, ⟨?_, ?_⟩, ⟨?_, ?_⟩, ⟨?_, ?_⟩, ⟨?_, ?_⟩, ⟨?_, ?_⟩⟩ <;> linarith
  · simp only [List.mem_cons, List.not_mem_nil, or_false, forall_eq_or_imp, forall_eq]
    refine ⟨?_, ?_, ?_, ?_, ?_, ?_, ?_⟩ <;> linarith

theorem sqrt7_bounds : (2 : ℝ) < √7 ∧ √7 < 3 :=
  ⟨Real.lt_sqrt_of_sq_lt (by norm_num), (Real.sqrt_lt' (by norm_num)).2 (by norm_num)⟩
theorem sqrt15_bounds : (3 : ℝ) < √15 ∧ √15 < 4 :=
  ⟨Real.lt_sqrt_of_sq_lt (by norm_num), (Real.sqrt_lt' (by norm_num)).2 (by norm_num)⟩

/-- C11: whenever `lobatto(n)` returns, the rule is well formed, starts at 0, ends at 1, and is
exact for every polynomial of degree at most `2n-3`. -/
theorem lobatto_exact (n : ℕ) (pts wts : List ℝ) (h : lobatto n = .ok (pts, wts)) :
    WellFormed pts wts n ∧ pts.head? = some 0 ∧ pts.getLast? = some 1 ∧
      ExactTo pts wts (2 * n - 3) := by
  unfold lobatto at h
  split_ifs at h with h2 h3 h4 h5 h6 h7
  · subst h2
    obtain ⟨rfl, rfl⟩ := Prod.mk.inj (Except.ok.inj h)
    refine ⟨⟨rfl, rfl, by simp, by simp, by simp⟩, by simp, by simp, exact_lobatto2⟩
  · subst h3
    obtain ⟨rfl, rfl⟩ := Prod.mk.inj (Except.ok.inj h)
    refine ⟨⟨rfl, rfl, ?_, ?_, ?_⟩, by simp, by simp, exact_lobatto3⟩ <;> norm_num
  · subst h4
    obtain ⟨rfl, rfl⟩ := Prod.mk.inj (Except.ok.inj h)
    have hr : (1 / √5 : ℝ) ^ 2 = 1 / 5 := by rw [div_pow, sq5]; norm_num
    have h0 : (0 : ℝ) < 1 / √5 := by positivity
    have h1 : (1 / √5 : ℝ) < 1 := by nlinarith
    exact ⟨wf4 _ h0 h1, by simp, by simp, exact_lobatto4 _ hr⟩
  · subst h5
    obtain ⟨rfl, rfl⟩ := Prod.mk.inj (Except.ok.inj h)
    have hr : (√3 / √7 : ℝ) ^ 2 = 3 / 7 := by rw [div_pow, sq7, sq3]
    have h0 : (0 : ℝ) < √3 / √7 := by positivity
    have h1 : (√3 / √7 : ℝ) < 1 := by nlinarith
    exact ⟨wf5 _ h0 h1, by simp, by simp, exact_lobatto5 _ hr⟩
  · subst h6
    obtain ⟨rfl, rfl⟩ := Prod.mk.inj (Except.ok.inj h)
    obtain ⟨l, u⟩ := sqrt7_bounds
    have hA : (0 : ℝ) < 1 / 3 - 2 * √7 / 21 := by linarith
    have ha := Real.sq_sqrt (show (0 : ℝ) ≤ 1 / 3 + 2 * √7 / 21 by linarith)
    have hb := Real.sq_sqrt hA.le
    refine ⟨wf6 _ _ _ (Real.sqrt_pos.2 hA) (Real.sqrt_lt_sqrt hA.le (by linarith)) ?_ (by linarith)
      (by linarith), by simp, by simp, exact_lobatto6 _ _ _ sq7 ha hb⟩
    rw [Real.sqrt_lt' (by norm_num)]
    linarith
  · subst h7
    obtain ⟨rfl, rfl⟩ := Prod.mk.inj (Except.ok.inj h)
    obtain ⟨l, u⟩ := sqrt15_bounds
    rw [sqrt5_div_sqrt3]
    have hA : (0 : ℝ) < (5 - 2 * √15 / 3) / 11 := by linarith
    have ha := Real.sq_sqrt (show (0 : ℝ) ≤ (5 + 2 * √15 / 3) / 11 by linarith)
    have hb := Real.sq_sqrt hA.le
    refine ⟨wf7 _ _ _ (Real.sqrt_pos.2 hA) (Real.sqrt_lt_sqrt hA.le (by linarith)) ?_ (by linarith)
      (by linarith), by simp, by simp, exact_lobatto7 _ _ _ sq15 ha hb⟩
    rw [Real.sqrt_lt' (by norm_num)]
    linarith

/-- C11: `lobatto(n)` returns exactly for `n = 2, …, 7`, and otherwise raises
`NotImplementedError`. -/
theorem lobatto_defined (n : ℕ) :
    ((∃ r, lobatto n = .ok r) ↔ 2 ≤ n ∧ n ≤ 7) ∧
    (¬ (2 ≤ n ∧ n ≤ 7) → lobatto n = .error .notImplemented) := by
  have hdef : 2 ≤ n ∧ n ≤ 7 → ∃ r, lobatto n = .ok r := by
    rintro ⟨h1, h2⟩
    interval_cases n <;> simp [lobatto]
  have hnot : ¬ (2 ≤ n ∧ n ≤ 7) → lobatto n = .error .notImplemented := by
    intro h
    rw [lobatto, if_neg (by omega), if_neg (by omega), if_neg (by omega), if_neg (by omega),
      if_neg (by omega), if_neg (by omega)]
  refine ⟨⟨?_, hdef⟩, hnot⟩
  rintro ⟨r, hr⟩
  by_contra hc
  rw [hnot hc] at hr
  cases hr

example : ∃ pts wts, lobatto 6 = .ok (pts, wts) := by simp [lobatto]

/-! ## C12 -/

/-- C12: whenever `radau(n)` returns, the rule is well formed, starts at 0, and is exact for every
polynomial of degree at most `2n-2`. -/
theorem radau_exact (n : ℕ) (pts wts : List ℝ) (h : radau n = .ok (pts, wts)) :
    WellFormed pts wts n ∧ pts.head? = some 0 ∧ ExactTo pts wts (2 * n - 2) := by
  unfold radau at h
  split_ifs at h with h2 h3
  · subst h2
    obtain ⟨rfl, rfl⟩ := Prod.mk.inj (Except.ok.inj h)
    refine ⟨⟨rfl, rfl, ?_, ?_, ?_⟩, by simp, exact_radau2⟩ <;> norm_num
  · subst h3
    obtain ⟨rfl, rfl⟩ := Prod.mk.inj (Except.ok.inj h)
    have l : (2 : ℝ) < √6 := Real.lt_sqrt_of_sq_lt (by norm_num)
    have u : (√6 : ℝ) < 3 := (Real.sqrt_lt' (by norm_num)).2 (by norm_num)
    refine ⟨⟨rfl, rfl, ?_, ?_, ?_⟩, by simp, exact_radau3 _ sq6⟩
    · simp only [List.pairwise_cons, List.mem_cons, List.not_mem_nil, or_false, forall_eq_or_imp,
        forall_eq, List.Pairwise.nil, and_true, IsEmpty.forall_iff, implies_true]
      refine ⟨⟨?_, ?_⟩, ?_⟩ <;> linarith
    · simp only [List.mem_cons, List.not_mem_nil, or_false, forall_eq_or_imp, forall_eq]
      refine ⟨⟨?_, ?_⟩, ⟨?_, ?_⟩, ⟨?_, ?_⟩⟩ <;> linarith
    · simp only [List.mem_cons, List.not_mem_nil, or_false, forall_eq_or_imp, forall_eq]
      refine ⟨?_, ?_, ?_⟩ <;> linarith

/-- C12: whenever `legendre(n)` returns, the rule is well formed and exact for every polynomial of
degree at most `2n-1`. -/
theorem legendre_exact (n : ℕ) (pts wts : List ℝ) (h : legendre n = .ok (pts, wts)) :
    WellFormed pts wts n ∧ ExactTo pts wts (2 * n - 1) := by
  unfold legendre at h
  split_ifs at h with h1 h2 h3
  · subst h1
    obtain ⟨rfl, rfl⟩ := Prod.mk.inj (Except.ok.inj h)
    refine ⟨⟨rfl, rfl, ?_, ?_, ?_⟩, exact_legendre1⟩ <;> norm_num
  · subst h2
    obtain ⟨rfl, rfl⟩ := Prod.mk.inj (Except.ok.inj h)
    have l : (1 : ℝ) < √3 := Real.lt_sqrt_of_sq_lt (by norm_num)
    have u : (√3 : ℝ) < 2 := (Real.sqrt_lt' (by norm_num)).2 (by norm_num)
    refine ⟨⟨rfl, rfl, ?_, ?_, ?_⟩, exact_legendre2 _ sq3⟩
    · simp only [List.pairwise_cons, List.mem_cons, List.not_mem_nil, or_false,
        forall_eq, List.Pairwise.nil, and_true, IsEmpty.forall_iff, implies_true]
      linarith
    · simp only [List.mem_cons, List.not_mem_nil, or_false, forall_eq_or_imp, forall_eq]
      refine ⟨⟨?_, ?_⟩, ⟨?_, ?_⟩⟩ <;> linarith
    · norm_num
  · subst h3
    obtain ⟨rfl, rfl⟩ := Prod.mk.inj (Except.ok.inj h)
    obtain ⟨l, u⟩ := sqrt15_bounds
    refine ⟨⟨rfl, rfl, ?_, ?_, ?_⟩, exact_legendre3 _ sq15⟩
    · simp only [List.pairwise_cons, List.mem_cons, List.not_mem_nil, or_false, forall_eq_or_imp,
        forall_eq, List.Pairwise.nil, and_true, IsEmpty.forall_iff, implies_true]
      refine ⟨⟨?_, ?_⟩, ?_⟩ <;> linarith
    · simp only [List.mem_cons, List.not_mem_nil, or_false, forall_eq_or_imp, forall_eq]
      refine ⟨⟨?_, ?_⟩, ⟨?_, ?_⟩, ⟨?_, ?_⟩⟩ <;> linarith
    · norm_num

/-- C12: `radau(n)` returns exactly for `n = 2, 3` and `legendre(n)` exactly for `n = 1, 2, 3`; all
other calls raise `NotImplementedError`. -/
theorem radau_legendre_defined (n : ℕ) :
    ((n = 2 ∨ n = 3) → ∃ r, radau n = .ok r) ∧
    (¬ (n = 2 ∨ n = 3) → radau n = .error .notImplemented) ∧
    ((n = 1 ∨ n = 2 ∨ n = 3) → ∃ r, legendre n = .ok r) ∧
    (¬ (n = 1 ∨ n = 2 ∨ n = 3) → legendre n = .error .notImplemented) := by
  refine ⟨?_, ?_, ?_, ?_⟩
  · rintro (rfl | rfl) <;> simp [radau]
  · intro h
    rw [radau, if_neg (by omega), if_neg (by omega)]
  · rintro (rfl | rfl | rfl) <;> simp [legendre]
  · intro h
    rw [legendre, if_neg (by omega), if_neg (by omega), if_neg (by omega)]

/-! ## C13 -/

/-- C13: each name selects its rule and every other name raises `ValueError`. -/
theorem getQuadrature_dispatch (name : String) (n : ℕ) :
    getQuadrature "equispaced" n = equispaced n ∧ getQuadrature "lobatto" n = lobatto n ∧
    getQuadrature "gll" n = lobatto n ∧ getQuadrature "radau" n = radau n ∧
    getQuadrature "legendre" n = legendre n ∧
    (name ∉ ["equispaced", "lobatto", "gll", "radau", "legendre"] →
      getQuadrature name n = .error .valueError) := by
  refine ⟨by simp [getQuadrature], by simp [getQuadrature], by simp [getQuadrature],
    by simp [getQuadrature], by simp [getQuadrature], ?_⟩
  intro h
  simp only [List.mem_cons, List.not_mem_nil, or_false, not_or] at h
  simp [getQuadrature, h]

/-- C13: whatever the name, a rule returned for `n ≥ 1` points is well formed, and its weights sum
to 1. -/
theorem getQuadrature_wellFormed (name : String) (n : ℕ) (hn : 1 ≤ n) (pts wts : List ℝ)
    (h : getQuadrature name n = .ok (pts, wts)) : WellFormed pts wts n ∧ wts.sum = 1 := by
  have key : ∀ d, WellFormed pts wts n → ExactTo pts wts d → WellFormed pts wts n ∧ wts.sum = 1 := by
    intro d hw he
    refine ⟨hw, ?_⟩
    have := he (Polynomial.C 1) (by simp)
    simp only [Polynomial.eval_C, intervalIntegral.integral_const, sub_zero, smul_eq_mul,
      mul_one] at this
    rw [← this]
    unfold quadValue
    have hlen : wts.length = pts.length := hw.weights_length.trans hw.points_length.symm
    clear this h he hw
    induction pts generalizing wts with
    | nil => simp_all
    | cons x pts ih =>
      cases wts with
      | nil => simp at hlen
      | cons w wts =>
        simp only [List.length_cons, Nat.add_right_cancel_iff] at hlen
        simp only [List.sum_cons, List.zipWith_cons_cons, mul_one, ih _ hlen]
  unfold getQuadrature at h
  split_ifs at h with h1 h2 h3 h4 h5
  · by_cases hn1 : n = 1
    · subst hn1; rw [equispaced_small.1] at h; cases h
    · obtain ⟨p, w, e, hw, _, hex⟩ := equispaced_exact n (by omega)
      rw [e] at h
      obtain ⟨rfl, rfl⟩ := Prod.mk.inj (Except.ok.inj h)
      exact key _ hw hex
  · obtain ⟨hw, _, _, hex⟩ := lobatto_exact n pts wts h
    exact key _ hw hex
  · obtain ⟨hw, _, _, hex⟩ := lobatto_exact n pts wts h
    exact key _ hw hex
  · obtain ⟨hw, _, hex⟩ := radau_exact n pts wts h
    exact key _ hw hex
  · obtain ⟨hw, hex⟩ := legendre_exact n pts wts h
    exact key _ hw hex

example : ∃ pts wts, getQuadrature "gll" 4 = .ok (pts, wts) := by
  simp [getQuadrature, lobatto]

end Verif.Quadrature
