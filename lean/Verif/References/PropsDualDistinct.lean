import Verif.References.PropsDualLattice
/-!
# The points of the lattice of a dual polygon are different (C40)
-/

namespace Verif.References

open Real

/-- The distance of a vertex from the origin. -/
noncomputable def dualRadius (m i : ℕ) : ℝ := if i % 2 = 0 then 1 else cos (π / m)

theorem dualRadius_pos {m : ℕ} (hm : 3 ≤ m) (i : ℕ) : 0 < dualRadius m i := by
  have hm' : (3 : ℝ) ≤ m := by exact_mod_cast hm
  unfold dualRadius
  split_ifs
  · norm_num
  · refine cos_pos_of_mem_Ioo ⟨by have := pi_pos; have : 0 < π / m := by positivity
                                  linarith, ?_⟩
    rw [div_lt_div_iff₀ (by linarith) (by norm_num)]
    nlinarith [pi_pos]

theorem dualVertex_polar {m : ℕ} (hm : m ≠ 0) (i : ℕ) :
    dualVertex m i 0 = dualRadius m i * cos (π * i / m) ∧ dualVertex m i 1 = dualRadius m i * sin (π * i / m) := by
  have hm' : (m : ℝ) ≠ 0 := by exact_mod_cast hm
  rcases Nat.even_or_odd' i with ⟨k, rfl | rfl⟩
  · have e1 : 2 * k / 2 = k := by omega
    have e2 : 2 * k % 2 = 0 := by omega
    simp only [dualVertex, dualRadius, e1, e2, if_true, coords, List.getD_cons_zero, List.getD_cons_succ, one_mul]
    push_cast
    rw [show π * 2 * (k : ℝ) / m = π * (2 * k) / m by ring]
    exact ⟨rfl, rfl⟩
  · have e1 : (2 * k + 1) / 2 = k := by omega
    have e2 : (2 * k + 1) % 2 = 1 := by omega
    simp only [dualVertex, dualRadius, e1, e2, one_ne_zero, if_false, coords, List.getD_cons_zero, List.getD_cons_succ]
    push_cast
    have h1 : π * 2 * ((k : ℝ) + 1) / m = π * (2 * k + 1) / m + π / m := by field_simp; ring
    have h2 : π * 2 * (k : ℝ) / m = π * (2 * k + 1) / m - π / m := by field_simp; ring
    rw [h1, h2, cos_add, cos_sub, sin_add, sin_sub]
    constructor <;> ring

theorem dualVertex_next {m : ℕ} (hm : m ≠ 0) {i : ℕ} (hi : i < 2 * m) :
    dualVertex m ((i + 1) % (2 * m)) 0 = dualRadius m (i + 1) * cos (π * ((i + 1 : ℕ) : ℝ) / m) ∧
    dualVertex m ((i + 1) % (2 * m)) 1 = dualRadius m (i + 1) * sin (π * ((i + 1 : ℕ) : ℝ) / m) := by
  rcases Nat.lt_or_ge (i + 1) (2 * m) with h | h
  · rw [Nat.mod_eq_of_lt h]
    exact dualVertex_polar hm _
  · have hm' : (m : ℝ) ≠ 0 := by exact_mod_cast hm
    obtain h : i + 1 = 2 * m := by omega
    rw [h, Nat.mod_self]
    have h1 := dualVertex_polar hm 0
    have h2 : π * ((2 * m : ℕ) : ℝ) / m = 2 * π := by push_cast; field_simp
    rw [h1.1, h1.2, h2]
    simp [dualRadius]

theorem sin_nonneg_of {m k : ℕ} (hm : 0 < m) (hk : k ≤ m) : 0 ≤ sin (π * k / m) := by
  have hm' : (0 : ℝ) < m := by exact_mod_cast hm
  have hk' : (k : ℝ) ≤ m := by exact_mod_cast hk
  refine sin_nonneg_of_nonneg_of_le_pi (by have := pi_pos; positivity) ?_
  rw [div_le_iff₀ hm']
  exact mul_le_mul_of_nonneg_left hk' pi_pos.le

theorem sin_step_pos {m : ℕ} (hm : 3 ≤ m) : 0 < sin (π / m) := by
  have hm' : (3 : ℝ) ≤ m := by exact_mod_cast hm
  refine sin_pos_of_pos_of_lt_pi (by have := pi_pos; positivity) ?_
  rw [div_lt_iff₀ (by linarith)]
  nlinarith [pi_pos]

/-- The open sectors between consecutive vertices are disjoint. -/
theorem sectors_disjoint {m : ℕ} (hm : 3 ≤ m) {i j : ℕ} (hij : i < j) (hj : j < 2 * m) {a b a' b' : ℝ}
    (ha : 0 ≤ a) (hb : 0 < b) (ha' : 0 ≤ a') (hb' : 0 < b')
    (hc : a * cos (π * i / m) + b * cos (π * ((i + 1 : ℕ) : ℝ) / m) = a' * cos (π * j / m) + b' * cos (π * ((j + 1 : ℕ) : ℝ) / m))
    (hs : a * sin (π * i / m) + b * sin (π * ((i + 1 : ℕ) : ℝ) / m) = a' * sin (π * j / m) + b' * sin (π * ((j + 1 : ℕ) : ℝ) / m)) :
    False := by
  have hm0 : (m : ℝ) ≠ 0 := by exact_mod_cast (by omega : m ≠ 0)
  have key : ∀ θ : ℝ, a * sin (π * i / m - θ) + b * sin (π * ((i + 1 : ℕ) : ℝ) / m - θ) =
      a' * sin (π * j / m - θ) + b' * sin (π * ((j + 1 : ℕ) : ℝ) / m - θ) := fun θ => by
    simp only [sin_sub]
    linear_combination cos θ * hs - sin θ * hc
  have step : ∀ l : ℕ, π * ((l + 1 : ℕ) : ℝ) / m - π * l / m = π / m := fun l => by push_cast; ring
  have hpos := sin_step_pos hm
  rcases Nat.le_total (j - i) m with h | h
  · have := key (π * j / m)
    have e1 : π * i / m - π * j / m = -(π * ((j - i : ℕ) : ℝ) / m) := by rw [Nat.cast_sub hij.le]; ring
    have e2 : π * ((i + 1 : ℕ) : ℝ) / m - π * j / m = -(π * ((j - (i + 1) : ℕ) : ℝ) / m) := by rw [Nat.cast_sub hij]; ring
    rw [e1, e2, step, sub_self, sin_zero, mul_zero, zero_add, sin_neg, sin_neg] at this
    have h1 := mul_nonneg ha (sin_nonneg_of (by omega) h)
    have h2 := mul_nonneg hb.le (sin_nonneg_of (m := m) (k := j - (i + 1)) (by omega) (by omega))
    have h3 := mul_pos hb' hpos
    linarith
  · have := key (π * i / m)
    have e1 : π * j / m - π * i / m = π * ((j - i - m : ℕ) : ℝ) / m + π := by
      rw [Nat.cast_sub h, Nat.cast_sub hij.le]; field_simp; ring
    have e2 : π * ((j + 1 : ℕ) : ℝ) / m - π * i / m = π * ((j + 1 - i - m : ℕ) : ℝ) / m + π := by
      rw [Nat.cast_sub (show m ≤ j + 1 - i by omega), Nat.cast_sub (show i ≤ j + 1 by omega)]; field_simp; ring
    rw [e1, e2, step, sub_self, sin_zero, mul_zero, zero_add, sin_add_pi, sin_add_pi] at this
    have h1 := mul_nonneg ha' (sin_nonneg_of (m := m) (k := j - i - m) (by omega) (by omega))
    have h2 := mul_nonneg hb'.le (sin_nonneg_of (m := m) (k := j + 1 - i - m) (by omega) (by omega))
    have h3 := mul_pos hb hpos
    linarith

/-- **C40** The points of the lattice of a default dual polygon with three or more triangles are different, for every `n`. -/
theorem dualLattice_distinct (m : ℕ) (hm : 3 ≤ m) (n : ℕ) :
    (dualLattice m (fun _ => 0) (dualVertex m) n).Pairwise (Differ 2) := by
  have hm0 : m ≠ 0 := by omega
  rw [dualLattice, List.pairwise_flatMap]
  refine ⟨fun i hi => ?_, List.pairwise_lt_range.imp_of_mem fun {i j} hi hj hij p hp q hq => ?_⟩
  · rw [List.mem_range] at hi
    obtain ⟨L, hL, -, -, hd⟩ := lattice_triangle 2 (fun k => if k = 0 then fun _ => (0 : ℝ)
        else if k = 1 then dualVertex m i else dualVertex m ((i + 1) % (2 * m))) (n / 2)
    rw [hL, Option.getD_some]
    refine hd fun c hc k hk => ?_
    have h0 := hc 0 (by norm_num)
    have h1 := hc 1 (by norm_num)
    simp only [Finset.sum_range_succ, Finset.sum_range_zero, zero_add, one_ne_zero, if_false, if_true, Nat.reduceAdd, OfNat.ofNat_ne_zero,
      OfNat.ofNat_ne_one, sub_zero, (dualVertex_polar hm0 i).1, (dualVertex_polar hm0 i).2, (dualVertex_next hm0 hi).1,
      (dualVertex_next hm0 hi).2] at h0 h1
    have hr := dualRadius_pos hm i
    have hr' := dualRadius_pos hm (i + 1)
    have hpos := sin_step_pos hm
    have e : π * ((i + 1 : ℕ) : ℝ) / m = π * i / m + π / m := by push_cast; ring
    rw [e, cos_add] at h0
    rw [e, sin_add] at h1
    set s := sin (π * i / m)
    set t := cos (π * i / m)
    have hst : s ^ 2 + t ^ 2 = 1 := sin_sq_add_cos_sq _
    have k1 : c 1 * (dualRadius m (i + 1) * sin (π / m)) = 0 := by
      linear_combination t * h1 - s * h0 - c 1 * (dualRadius m (i + 1) * sin (π / m)) * hst
    have k1 : c 1 = 0 := (mul_eq_zero.1 k1).resolve_right (mul_pos hr' hpos).ne'
    rw [k1] at h0 h1
    have k0 : c 0 * dualRadius m i = 0 := by
      linear_combination t * h0 + s * h1 - c 0 * dualRadius m i * hst
    have k0 : c 0 = 0 := (mul_eq_zero.1 k0).resolve_right hr.ne'
    interval_cases k <;> assumption
  · rw [List.mem_range] at hi hj
    have get : ∀ i < 2 * m, ∀ p ∈ (lattice .triangle 2 (fun k => if k = 0 then fun _ => (0 : ℝ)
        else if k = 1 then dualVertex m i else dualVertex m ((i + 1) % (2 * m))) (n / 2)).getD [],
        ∃ a b : ℝ, 0 < a ∧ 0 < b ∧ p 0 = a * cos (π * i / m) + b * cos (π * ((i + 1 : ℕ) : ℝ) / m) ∧
          p 1 = a * sin (π * i / m) + b * sin (π * ((i + 1 : ℕ) : ℝ) / m) := by
      intro i hi p hp
      obtain ⟨L, hL, -, hs, -⟩ := lattice_triangle 2 (fun k => if k = 0 then fun _ => (0 : ℝ)
        else if k = 1 then dualVertex m i else dualVertex m ((i + 1) % (2 * m))) (n / 2)
      rw [hL, Option.getD_some] at hp
      obtain ⟨lam, h0, -, hpj⟩ := hs p hp
      refine ⟨lam 1 * dualRadius m i, lam 2 * dualRadius m (i + 1), mul_pos (h0 1 (by norm_num)) (dualRadius_pos hm _),
        mul_pos (h0 2 (by norm_num)) (dualRadius_pos hm _), ?_, ?_⟩
      · rw [hpj 0 (by norm_num)]
        simp only [Finset.sum_range_succ, Finset.sum_range_zero, zero_add, one_ne_zero, if_false, if_true, mul_zero, OfNat.ofNat_ne_zero,
          OfNat.ofNat_ne_one, (dualVertex_polar hm0 i).1, (dualVertex_next hm0 hi).1]
        ring
      · rw [hpj 1 (by norm_num)]
        simp only [Finset.sum_range_succ, Finset.sum_range_zero, zero_add, one_ne_zero, if_false, if_true, mul_zero, OfNat.ofNat_ne_zero,
          OfNat.ofNat_ne_one, (dualVertex_polar hm0 i).2, (dualVertex_next hm0 hi).2]
        ring
    obtain ⟨a, b, ha, hb, p0, p1⟩ := get i hi p hp
    obtain ⟨a', b', ha', hb', q0, q1⟩ := get j hj q hq
    by_contra hd
    have heq : ∀ l < 2, p l = q l := fun l hl => by
      by_contra h
      exact hd ⟨l, hl, h⟩
    exact sectors_disjoint hm hij hj ha.le hb ha'.le hb' (p0 ▸ q0 ▸ heq 0 (by norm_num)) (p1 ▸ q1 ▸ heq 1 (by norm_num))

example : (dualLattice 4 (fun _ => 0) (dualVertex 4) 6).Pairwise (Differ 2) := dualLattice_distinct 4 (by norm_num) 6

/-- **C40** (violated) A polygon with two triangles is degenerate, as the midpoints of its sides are the origin: from `n = 4` points
of the lattice are equal. -/
theorem dualLattice_two {n : ℕ} (hn : 4 ≤ n) : ¬ (dualLattice 2 (fun _ => 0) (dualVertex 2) n).Pairwise (Differ 2) := by
  intro h
  rw [dualLattice, List.pairwise_flatMap] at h
  have h := h.1 0 (List.mem_range.2 (by norm_num))
  have hz : ∀ j < 2, dualVertex 2 1 j = 0 := by
    intro j hj
    have := dualVertex_polar (m := 2) (by norm_num) 1
    simp only [dualRadius, Nat.cast_ofNat, cos_pi_div_two, zero_mul, Nat.reduceMod, one_ne_zero, if_false] at this
    interval_cases j
    · exact this.1
    · exact this.2
  have hl : (lattice .triangle 2 (fun k => if k = 0 then fun _ => (0 : ℝ) else if k = 1 then dualVertex 2 0
      else dualVertex 2 ((0 + 1) % (2 * 2))) (n / 2)).getD [] = (triIndices (n / 2)).map fun q => fun j =>
        (0 : ℝ) + ((2 * (q.1 : ℝ) + 1) * (dualVertex 2 0 j - 0) + (2 * (q.2 : ℝ) + 1) * (dualVertex 2 1 j - 0)) / 2 / (((n / 2 : ℕ) : ℝ) + 1) := rfl
  rw [hl, List.pairwise_map] at h
  have m1 : ((0, 0) : ℕ × ℕ) ∈ triIndices (n / 2) := mem_triIndices.2 (by show 0 + 0 < n / 2; omega)
  have m2 : ((0, 1) : ℕ × ℕ) ∈ triIndices (n / 2) := mem_triIndices.2 (by show 0 + 1 < n / 2; omega)
  have hsymm : Std.Symm fun (q q' : ℕ × ℕ) => Differ 2
      (fun j => (0 : ℝ) + ((2 * (q.1 : ℝ) + 1) * (dualVertex 2 0 j - 0) + (2 * (q.2 : ℝ) + 1) * (dualVertex 2 1 j - 0)) / 2 / (((n / 2 : ℕ) : ℝ) + 1))
      (fun j => (0 : ℝ) + ((2 * (q'.1 : ℝ) + 1) * (dualVertex 2 0 j - 0) + (2 * (q'.2 : ℝ) + 1) * (dualVertex 2 1 j - 0)) / 2 / (((n / 2 : ℕ) : ℝ) + 1)) :=
    ⟨fun q q' ⟨l, hl, h⟩ => ⟨l, hl, h.symm⟩⟩
  obtain ⟨l, hl, hne⟩ := h.forall m1 m2 (by decide)
  exact hne (by simp [hz l hl])

end Verif.References
