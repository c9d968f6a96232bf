import Verif.References.PropsLattice
import Mathlib.RingTheory.RootsOfUnity.Complex
import Mathlib.Algebra.BigOperators.Field
import Mathlib.Analysis.SpecialFunctions.Trigonometric.Basic
/-!
# The lattice of a dual polygon (C40)
-/

namespace Verif.References

open Real

/-- The default vertices of a dual polygon with `m` triangles (symfem/references.py:2325-2335): the
corners of a regular polygon and the midpoints of its sides. -/
noncomputable def dualVertex (m i : ℕ) : ℕ → ℝ :=
  let angle := π * 2 * (i / 2 : ℕ) / m
  let next := π * 2 * ((i / 2 : ℕ) + 1) / m
  if i % 2 = 0 then coords [cos angle, sin angle]
  else coords [(cos next + cos angle) / 2, (sin next + sin angle) / 2]

theorem sum_roots (m : ℕ) (hm : 2 ≤ m) :
    ∑ k ∈ Finset.range m, cos (π * 2 * k / m) = 0 ∧ ∑ k ∈ Finset.range m, sin (π * 2 * k / m) = 0 := by
  have h := (Complex.isPrimitiveRoot_exp m (by omega)).geom_sum_eq_zero (by omega)
  have e : ∀ k : ℕ, Complex.exp (2 * π * Complex.I / m) ^ k =
      Complex.exp (((π * 2 * k / m : ℝ) : ℂ) * Complex.I) := by
    intro k
    rw [← Complex.exp_nat_mul]
    congr 1
    push_cast
    ring
  simp only [e] at h
  constructor
  · have := congrArg Complex.re h
    rw [Complex.re_sum] at this
    simpa only [Complex.exp_ofReal_mul_I_re, Complex.zero_re] using this
  · have := congrArg Complex.im h
    rw [Complex.im_sum] at this
    simpa only [Complex.exp_ofReal_mul_I_im, Complex.zero_im] using this

theorem sum_even_odd (f : ℕ → ℝ) (m : ℕ) :
    ∑ i ∈ Finset.range (2 * m), f i = ∑ k ∈ Finset.range m, (f (2 * k) + f (2 * k + 1)) := by
  induction m with
  | zero => simp
  | succ m ih =>
    rw [Nat.mul_succ, Finset.sum_range_succ, Finset.sum_range_succ, ih, Finset.sum_range_succ]
    ring

/-- The origin is the mean of the vertices. -/
theorem dualVertex_sum (m : ℕ) (hm : 2 ≤ m) (j : ℕ) (hj : j < 2) :
    ∑ i ∈ Finset.range (2 * m), dualVertex m i j = 0 := by
  have shift : ∀ f : ℕ → ℝ, f m = f 0 → ∑ k ∈ Finset.range m, f (k + 1) =
      ∑ k ∈ Finset.range m, f k := by
    intro f hf
    have h1 := Finset.sum_range_succ f m
    have h2 := Finset.sum_range_succ' f m
    linarith
  have hm0 : (m : ℝ) ≠ 0 := by
    have : (0 : ℝ) < m := by exact_mod_cast (by omega : 0 < m)
    exact this.ne'
  obtain ⟨hc, hs⟩ := sum_roots m hm
  have hc' := shift (fun k => cos (π * 2 * k / m)) (by
    simp only [mul_div_assoc, div_self hm0]; simp [mul_comm π 2])
  have hs' := shift (fun k => sin (π * 2 * k / m)) (by
    simp only [mul_div_assoc, div_self hm0]; simp [mul_comm π 2])
  rw [hc] at hc'
  rw [hs] at hs'
  push_cast at hc' hs'
  rw [sum_even_odd]
  have e1 : ∀ k : ℕ, 2 * k / 2 = k := fun k => by omega
  have e2 : ∀ k : ℕ, (2 * k + 1) / 2 = k := fun k => by omega
  have e3 : ∀ k : ℕ, 2 * k % 2 = 0 := fun k => by omega
  have e4 : ∀ k : ℕ, (2 * k + 1) % 2 = 1 := fun k => by omega
  simp only [dualVertex, e1, e2, e3, e4]
  interval_cases j
  · simp [coords, Finset.sum_add_distrib, ← Finset.sum_div, hc, hc']
  · simp [coords, Finset.sum_add_distrib, ← Finset.sum_div, hs, hs']

/-- Every point of the lattice of a default dual polygon is strictly inside it, for every number of
triangles `m ≥ 2` and every `n`, and there are `2m · k(k+1)/2` points with `k = n // 2`. -/
theorem dualLattice_inside (m : ℕ) (hm : 2 ≤ m) (n : ℕ) :
    (dualLattice m (fun _ => 0) (dualVertex m) n).length = m * ((n / 2) * (n / 2 + 1)) ∧
    ∀ p ∈ dualLattice m (fun _ => 0) (dualVertex m) n, StrictHull 2 (2 * m) (dualVertex m) p := by
  constructor
  · rw [dualLattice, List.length_flatMap]
    have : ∀ i ∈ List.range (2 * m), ((lattice .triangle 2
      (fun k => if k = 0 then fun _ => (0 : ℝ) else if k = 1 then dualVertex m i
        else dualVertex m ((i + 1) % (2 * m))) (n / 2)).getD []).length =
        (triIndices (n / 2)).length := by
      intro i _
      obtain ⟨L, hL, hl, -⟩ := lattice_triangle 2 (fun k => if k = 0 then fun _ => (0 : ℝ)
        else if k = 1 then dualVertex m i else dualVertex m ((i + 1) % (2 * m))) (n / 2)
      rw [hL]
      have := length_triIndices (n / 2)
      simp only [Option.getD_some]
      omega
    rw [List.map_congr_left this]
    have := length_triIndices (n / 2)
    simp only [List.map_const', List.sum_replicate, List.length_range, smul_eq_mul]
    rw [mul_comm 2 m, mul_assoc, this]
  · intro p hp
    rw [dualLattice, List.mem_flatMap] at hp
    obtain ⟨i, hi, hp⟩ := hp
    rw [List.mem_range] at hi
    obtain ⟨L, hL, -, hs, -⟩ := lattice_triangle 2 (fun k => if k = 0 then fun _ => (0 : ℝ)
        else if k = 1 then dualVertex m i else dualVertex m ((i + 1) % (2 * m))) (n / 2)
    rw [hL, Option.getD_some] at hp
    obtain ⟨lam, h0, h1, hpj⟩ := hs p hp
    have l0 := h0 0 (by norm_num)
    have l1 := h0 1 (by norm_num)
    have l2 := h0 2 (by norm_num)
    have hM : (0 : ℝ) < ((2 * m : ℕ) : ℝ) := by exact_mod_cast (by omega : 0 < 2 * m)
    set i' := (i + 1) % (2 * m) with hi'
    have hi'lt : i' < 2 * m := Nat.mod_lt _ (by omega)
    have hmem : i ∈ Finset.range (2 * m) := Finset.mem_range.2 hi
    have hmem' : i' ∈ Finset.range (2 * m) := Finset.mem_range.2 hi'lt
    refine ⟨fun k => lam 0 / (2 * m : ℕ) + (if k = i then lam 1 else 0) +
      (if k = i' then lam 2 else 0), ?_, ?_, ?_⟩
    · intro k _
      have : 0 < lam 0 / (2 * m : ℕ) := by positivity
      beta_reduce
      split_ifs <;> linarith
    · simp only [Finset.sum_add_distrib, Finset.sum_ite_eq' (Finset.range (2 * m)), hmem, hmem',
        if_true, Finset.sum_const, Finset.card_range, nsmul_eq_mul]
      rw [mul_div_cancel₀ _ hM.ne']
      simpa [Finset.sum_range_succ] using h1
    · intro j hj
      rw [hpj j hj]
      simp only [add_mul, ite_mul, zero_mul, Finset.sum_add_distrib,
        Finset.sum_ite_eq' (Finset.range (2 * m)), hmem, hmem', if_true]
      rw [← Finset.mul_sum, dualVertex_sum m hm j hj]
      simp [Finset.sum_range_succ]

end Verif.References
