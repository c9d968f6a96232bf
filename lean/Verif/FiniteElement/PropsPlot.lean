import Verif.FiniteElement.PropsMap
import Verif.References.SpecShape
import Mathlib.Algebra.Order.Field.Basic
import Mathlib.Algebra.BigOperators.Fin
import Mathlib.Tactic.Linarith
import Mathlib.Tactic.FieldSimp
import Mathlib.Tactic.NormNum
import Mathlib.Tactic.LinearCombination
import Mathlib.Tactic.IntervalCases
import Mathlib.Tactic.Positivity
/-!
# Plot positions of direct elements (C63)
-/

set_option linter.unusedSectionVars false

namespace Verif.FiniteElement
open Verif.References

theorem growTri_spec (count ne : ℕ) (h : 1 ≤ ne) :
    1 ≤ growTri count ne ∧ count ≤ growTri count ne * (growTri count ne + 1) / 2 := by
  fun_induction growTri count ne with
  | case1 ne hlt ih => exact ih (by omega)
  | case2 ne hge => exact ⟨h, by omega⟩

/-- The loop stops at the first size that is large enough. -/
theorem growTri_least (count ne : ℕ) (h : (ne - 1) * ne / 2 < count) :
    (growTri count ne - 1) * growTri count ne / 2 < count := by
  fun_induction growTri count ne with
  | case1 ne hlt ih => exact ih (by rw [Nat.add_sub_cancel]; exact hlt)
  | case2 ne hge => exact h

/-- Sum of the lengths of the first rows. -/
def rowStart (ne : ℕ) : ℕ → ℕ
  | 0 => 0
  | i + 1 => rowStart ne i + (ne - i)

theorem rowLoop_spec (ne e i : ℕ) (hi : i < ne) (he : e < (ne - i) * (ne - i + 1) / 2) :
    (rowLoop ne e i).2 < ne ∧ (rowLoop ne e i).1 < ne - (rowLoop ne e i).2 ∧
      (rowLoop ne e i).1 + rowStart ne (rowLoop ne e i).2 = e + rowStart ne i := by
  fun_induction rowLoop ne e i with
  | case1 e i hc ih =>
    obtain ⟨m, hm⟩ : ∃ m, ne = i + 1 + m := ⟨ne - (i + 1), by omega⟩
    have hs : ne - i = m + 1 := by omega
    have hs' : ne - (i + 1) = m := by omega
    rw [hs] at he hc
    have hdiv : (m + 1) * (m + 1 + 1) / 2 = m * (m + 1) / 2 + (m + 1) := by
      have : (m + 1) * (m + 1 + 1) = m * (m + 1) + (m + 1) * 2 := by ring
      rw [this, Nat.add_mul_div_right _ _ (by norm_num)]
    rw [hdiv] at he
    have hm0 : m ≠ 0 := by rintro rfl; simp at he; omega
    have := ih (by omega) (by rw [hs', hs]; omega)
    refine ⟨this.1, this.2.1, ?_⟩
    rw [this.2.2, rowStart, hs]
    omega
  | case2 e i hc =>
    refine ⟨hi, ?_, rfl⟩
    push Not at hc
    exact hc hi

section
variable {K : Type} [Field K]

/-- DOF `n` of the entity it is attached to is at the position computed from its rank there. -/
theorem plotPositions_getElem? (fuel : ℕ) (ents : List (ℕ × ℕ))
    (geom : ℕ × ℕ → (ℕ → K) × (ℕ → ℕ → K)) (ps : List (ℕ → K))
    (h : plotPositions fuel ents geom = some ps) :
    ps.length = ents.length ∧ ∀ (n : ℕ) (e : ℕ × ℕ), ents[n]? = some e → ∃ k,
      (matching ents e)[k]? = some n ∧
      ps[n]? = plotPosition fuel e.1 k (matching ents e).length n (geom e).1 (geom e).2 := by
  obtain ⟨hl, hi⟩ := (mapM_some_iff _ _ _).1 h
  refine ⟨by simpa using hl, fun n e hn => ⟨(matching ents e).idxOf n, ?_, ?_⟩⟩
  · exact List.getElem?_idxOf ((mem_matching ents e n).2 hn)
  · rw [← hi n, List.getElem?_zipIdx, hn]
    simp

end

section
variable {K : Type} [Field K] [LinearOrder K] [IsStrictOrderedRing K]

/-- **C63** The DOFs of an edge are strictly between its end points. -/
theorem plotPosition_edge_inside (fuel k count n g : ℕ) (hk : k < count) (v : ℕ → ℕ → K)
    (p : ℕ → K)
    (h : plotPosition fuel 1 k count n (v 0) (fun _ => psub (v 1) (v 0)) = some p) :
    StrictHull g 2 v p := by
  injection h with h
  have hc : (0 : K) < (count : K) + 1 := by positivity
  have hk' : (k : K) < count := by exact_mod_cast hk
  refine ⟨fun i => if i = 0 then 1 - ((k : K) + 1) / (count + 1) else ((k : K) + 1) / (count + 1),
    ?_, ?_, ?_⟩
  · intro i hi
    have h1 : (0 : K) < (k + 1) / (count + 1) := by positivity
    have h2 : ((k : K) + 1) / (count + 1) < 1 := by rw [div_lt_one hc]; linarith
    beta_reduce
    split_ifs
    · linarith
    · exact h1
  · simp [Finset.sum_range_succ]
  · intro j _
    rw [← h]
    simp only [Finset.sum_range_succ, Finset.sum_range_zero, psub]
    simp
    field_simp
    ring

/-- **C63** Different DOFs of one edge are at different points. -/
theorem plotPosition_edge_distinct (fuel k k' count n n' g : ℕ) (hkk : k ≠ k') (v : ℕ → ℕ → K)
    (hv : Differ g (v 0) (v 1)) (p p' : ℕ → K)
    (h : plotPosition fuel 1 k count n (v 0) (fun _ => psub (v 1) (v 0)) = some p)
    (h' : plotPosition fuel 1 k' count n' (v 0) (fun _ => psub (v 1) (v 0)) = some p') :
    Differ g p p' := by
  injection h with h
  injection h' with h'
  obtain ⟨j, hj, hne⟩ := hv
  refine ⟨j, hj, ?_⟩
  rw [← h, ← h']
  intro heq
  have hc : (0 : K) < (count : K) + 1 := by positivity
  have h1 := add_left_cancel heq
  rw [div_left_inj' hc.ne'] at h1
  have h2 := mul_right_cancel₀ (show v 1 j - v 0 j ≠ 0 from sub_ne_zero.2 (Ne.symm hne)) h1
  have h3 := add_right_cancel h2
  exact hkk (by exact_mod_cast h3)

/-- The two coefficients of a DOF on a face. -/
theorem plotPosition_face (fuel k count n : ℕ) (hk : k < count) (o : ℕ → K) (ax : ℕ → ℕ → K) :
    ∃ ne r i : ℕ, ne = growTri count 1 ∧ i < ne ∧ r < ne - i ∧ r + rowStart ne i = k ∧
      plotPosition fuel 2 k count n o ax =
        some fun j => o j + (((r : K) + 1) * ax 0 j + ((i : K) + 1) * ax 1 j) / ((ne : K) + 1) := by
  obtain ⟨h1, h2⟩ := growTri_spec count 1 le_rfl
  obtain ⟨a, b, c⟩ := rowLoop_spec (growTri count 1) k 0 (by omega) (by rw [Nat.sub_zero]; omega)
  exact ⟨growTri count 1, (rowLoop (growTri count 1) k 0).1, (rowLoop (growTri count 1) k 0).2, rfl,
    a, b, by simpa [rowStart] using c, rfl⟩

/-- **C63** The DOFs of a face that is a parallelogram are strictly inside it. -/
theorem plotPosition_quadrilateral_inside (fuel k count n g : ℕ) (hk : k < count) (v : ℕ → ℕ → K)
    (hpar : ∀ j < g, v 3 j = v 1 j + v 2 j - v 0 j) (p : ℕ → K)
    (h : plotPosition fuel 2 k count n (v 0) (fun m => psub (v (m + 1)) (v 0)) = some p) :
    StrictHull g 4 v p := by
  obtain ⟨ne, r, i, -, hi, hr, -, hpos⟩ := plotPosition_face fuel k count n hk (v 0)
    (fun m => psub (v (m + 1)) (v 0))
  rw [hpos] at h
  injection h with h
  have hn : (0 : K) < (ne : K) + 1 := by positivity
  set α : K := ((r : K) + 1) / (ne + 1) with hα
  set β : K := ((i : K) + 1) / (ne + 1) with hβ
  have hα0 : 0 < α := by positivity
  have hβ0 : 0 < β := by positivity
  have hα1 : α < 1 := by
    rw [hα, div_lt_one hn]
    have : (r : K) < ne := by exact_mod_cast (by omega : r < ne)
    linarith
  have hβ1 : β < 1 := by
    rw [hβ, div_lt_one hn]
    have : (i : K) < ne := by exact_mod_cast hi
    linarith
  refine ⟨fun m => match m with
    | 0 => (1 - α) * (1 - β) | 1 => α * (1 - β) | 2 => (1 - α) * β | _ => α * β, ?_, ?_, ?_⟩
  · intro m hm
    have := sub_pos.2 hα1
    have := sub_pos.2 hβ1
    rcases m with _ | _ | _ | _ <;> first | positivity | (simp only; positivity)
  · simp [Finset.sum_range_succ]
    ring
  · intro j hj
    rw [← h]
    simp only [Finset.sum_range_succ, Finset.sum_range_zero, psub, hpar j hj]
    have e : (((r : K) + 1) * (v (0 + 1) j - v 0 j) + ((i : K) + 1) * (v (1 + 1) j - v 0 j)) /
        ((ne : K) + 1) = α * (v 1 j - v 0 j) + β * (v 2 j - v 0 j) := by
      rw [hα, hβ]; field_simp
    rw [e]
    ring

/-- **C63** The DOFs of a triangular face are in it (possibly on its boundary). -/
theorem plotPosition_triangle_inside_partial (fuel k count n g : ℕ) (hk : k < count)
    (v : ℕ → ℕ → K) (p : ℕ → K)
    (h : plotPosition fuel 2 k count n (v 0) (fun m => psub (v (m + 1)) (v 0)) = some p) :
    Hull g 3 v p := by
  obtain ⟨ne, r, i, -, hi, hr, -, hpos⟩ := plotPosition_face fuel k count n hk (v 0)
    (fun m => psub (v (m + 1)) (v 0))
  rw [hpos] at h
  injection h with h
  have hn : (0 : K) < (ne : K) + 1 := by positivity
  set α : K := ((r : K) + 1) / (ne + 1) with hα
  set β : K := ((i : K) + 1) / (ne + 1) with hβ
  have hα0 : 0 < α := by positivity
  have hβ0 : 0 < β := by positivity
  have hs : α + β ≤ 1 := by
    rw [hα, hβ, ← add_div, div_le_one hn]
    have : (r : K) + 1 + i ≤ ne := by exact_mod_cast (by omega : r + 1 + i ≤ ne)
    linarith
  refine ⟨fun m => match m with | 0 => 1 - α - β | 1 => α | _ => β, ?_, ?_, ?_⟩
  · intro m hm
    rcases m with _ | _ | _ <;> simp only <;> linarith
  · simp [Finset.sum_range_succ]
    ring
  · intro j hj
    rw [← h]
    simp only [Finset.sum_range_succ, Finset.sum_range_zero, psub]
    have e : (((r : K) + 1) * (v (0 + 1) j - v 0 j) + ((i : K) + 1) * (v (1 + 1) j - v 0 j)) /
        ((ne : K) + 1) = α * (v 1 j - v 0 j) + β * (v 2 j - v 0 j) := by
      rw [hα, hβ]; field_simp
    rw [e]
    ring

/-- **C63** (violated on triangles) However many DOFs a triangular face has, one of them is put on
the edge joining its second and third vertex and not in the interior of the face. -/
theorem plotPosition_triangle_on_edge (fuel count n g : ℕ) (hc : 1 ≤ count) (v : ℕ → ℕ → K) :
    ∃ k < count, ∃ p, plotPosition fuel 2 k count n (v 0) (fun m => psub (v (m + 1)) (v 0)) =
      some p ∧ StrictHull g 2 (fun m => v (m + 1)) p := by
  set ne := growTri count 1 with hne
  obtain ⟨h1, h2⟩ := growTri_spec count 1 le_rfl
  have hleast := growTri_least count 1 (by simp; omega)
  rw [← hne] at h1 h2 hleast
  have hlt : ne - 1 < count := by
    have : ne - 1 ≤ (ne - 1) * ne / 2 := by
      rw [Nat.le_div_iff_mul_le (by norm_num)]
      rcases Nat.lt_or_ge ne 2 with h | h
      · have : ne = 1 := by omega
        rw [this]
      · exact Nat.mul_le_mul_left _ h
    omega
  refine ⟨ne - 1, hlt, _, rfl, ?_⟩
  have hr : rowLoop ne (ne - 1) 0 = (ne - 1, 0) := by
    rw [rowLoop, if_neg (by omega)]
  rw [← hne, hr]
  have hn : (0 : K) < (ne : K) + 1 := by positivity
  have hn0 : (1 : K) ≤ ne := by exact_mod_cast h1
  refine ⟨fun m => if m = 0 then (ne : K) / (ne + 1) else 1 / (ne + 1), ?_, ?_, ?_⟩
  · intro m _
    beta_reduce
    split_ifs <;> positivity
  · simp [Finset.sum_range_succ]
    field_simp
  · intro j _
    simp only [Finset.sum_range_succ, Finset.sum_range_zero, psub, Nat.cast_sub h1]
    simp
    field_simp
    ring

/-- **C63** Different DOFs of one face are at different points. -/
theorem plotPosition_face_distinct (fuel k k' count n n' g : ℕ) (hk : k < count) (hk' : k' < count)
    (hkk : k ≠ k') (v : ℕ → ℕ → K)
    (hv : Indep g 2 (fun m => psub (v (m + 1)) (v 0))) (p p' : ℕ → K)
    (h : plotPosition fuel 2 k count n (v 0) (fun m => psub (v (m + 1)) (v 0)) = some p)
    (h' : plotPosition fuel 2 k' count n' (v 0) (fun m => psub (v (m + 1)) (v 0)) = some p') :
    Differ g p p' := by
  obtain ⟨ne, r, i, hne, hi, hr, hrow, hpos⟩ := plotPosition_face fuel k count n hk (v 0)
    (fun m => psub (v (m + 1)) (v 0))
  obtain ⟨ne', r', i', hne', hi', hr', hrow', hpos'⟩ := plotPosition_face fuel k' count n' hk' (v 0)
    (fun m => psub (v (m + 1)) (v 0))
  rw [hpos] at h
  rw [hpos'] at h'
  injection h with h
  injection h' with h'
  have hn : (0 : K) < (ne : K) + 1 := by positivity
  have hnn : ne' = ne := by rw [hne, hne']
  subst hnn
  by_contra hd
  have hall : ∀ j < g, p j = p' j := by
    intro j hj
    by_contra hne
    exact hd ⟨j, hj, hne⟩
  have hzero := hv (fun m => if m = 0 then (r : K) - r' else (i : K) - i') (by
    intro j hj
    have := hall j hj
    rw [← h, ← h'] at this
    have h1 := add_left_cancel this
    rw [div_left_inj' hn.ne'] at h1
    simp only [Finset.sum_range_succ, Finset.sum_range_zero]
    simp
    linear_combination h1)
  have e1 : (r : K) = r' := by simpa [sub_eq_zero] using hzero 0 (by norm_num)
  have e2 : (i : K) = i' := by simpa [sub_eq_zero] using hzero 1 (by norm_num)
  have e1' : r = r' := by exact_mod_cast e1
  have e2' : i = i' := by exact_mod_cast e2
  apply hkk
  rw [← hrow, ← hrow', e1', e2']

/-- **C63** For the public function: two DOFs attached to one edge or to one face of an element are
at different points. -/
theorem plotPositions_distinct (fuel g : ℕ) (ents : List (ℕ × ℕ)) (verts : ℕ × ℕ → ℕ → ℕ → K)
    (ps : List (ℕ → K))
    (h : plotPositions fuel ents (fun e => (verts e 0, fun m => psub (verts e (m + 1)) (verts e 0)))
      = some ps)
    (n n' : ℕ) (hn : n ≠ n') (e : ℕ × ℕ) (he : ents[n]? = some e) (he' : ents[n']? = some e)
    (hdim : e.1 = 1 ∨ e.1 = 2) (hind : Indep g e.1 (fun m => psub (verts e (m + 1)) (verts e 0)))
    (p p' : ℕ → K) (hp : ps[n]? = some p) (hp' : ps[n']? = some p') : Differ g p p' := by
  obtain ⟨-, hget⟩ := plotPositions_getElem? fuel ents _ ps h
  obtain ⟨k, hk, hkp⟩ := hget n e he
  obtain ⟨k', hk', hkp'⟩ := hget n' e he'
  rw [hp] at hkp
  rw [hp'] at hkp'
  have hkk : k ≠ k' := by
    rintro rfl
    rw [hk] at hk'
    injection hk' with hk'
    exact hn hk'
  have hlt := (List.getElem?_eq_some_iff.1 hk).1
  have hlt' := (List.getElem?_eq_some_iff.1 hk').1
  rcases hdim with hd | hd
  · rw [hd] at hkp hkp' hind
    refine plotPosition_edge_distinct fuel k k' _ n n' g hkk (verts e) ?_ p p' hkp.symm hkp'.symm
    by_contra hno
    have := hind (fun _ => 1) (by
      intro j hj
      have heq : verts e 0 j = verts e 1 j := by
        by_contra hne
        exact hno ⟨j, hj, hne⟩
      simp [psub, heq]) 0 (by norm_num)
    exact one_ne_zero this
  · rw [hd] at hkp hkp' hind
    exact plotPosition_face_distinct fuel k k' _ n n' g hlt hlt' hkk (verts e) hind p p' hkp.symm
      hkp'.symm

/-- Three DOFs on one edge of the unit square and one inside: the computed positions. -/
example : ∃ ps, plotPositions (K := ℚ) 0 [(1, 0), (2, 0), (1, 0)]
    (fun e => if e.1 = 1 then (coords [0, 0], fun _ => coords [1, 0])
      else (coords [0, 0], fun m => if m = 0 then coords [1, 0] else coords [0, 1])) = some ps ∧
    ps.map (fun p => [p 0, p 1]) = [[1 / 3, 0], [1 / 2, 1 / 2], [2 / 3, 0]] := by
  refine ⟨_, by simp [plotPositions, plotPosition, matching]; rfl, ?_⟩
  have h1 : growTri 1 1 = 1 := by rw [growTri]; simp
  have h2 : rowLoop 1 0 0 = (0, 0) := by rw [rowLoop]; simp
  simp [h1, h2, coords]
  norm_num

/-- **C63** (violated on volumes) The first DOF of a volume, if at most two DOFs come before it, is
not in the interior of a tetrahedron: the coefficients of the three axes do not sum to less
than 1. -/
theorem plotPosition_volume_first (fuel count n : ℕ) (hf : n + 2 ≤ fuel) (hn : n ≤ 2) :
    ∃ p, plotPosition fuel 3 0 count n (refVertex (K := K) .tetrahedron 0)
      (fun m => psub (refVertex .tetrahedron (m + 1)) (refVertex .tetrahedron 0)) = some p ∧
      ¬ StrictHull 3 4 (refVertex .tetrahedron) p := by
  have hg : ∃ ne, growTet n fuel 1 = some ne ∧ 1 ≤ ne := by
    interval_cases n <;> obtain ⟨f, rfl⟩ : ∃ f, fuel = f + 2 := ⟨fuel - 2, by omega⟩ <;>
      simp [growTet]
  obtain ⟨ne, hg, hne⟩ := hg
  obtain ⟨f, rfl⟩ : ∃ f, fuel = f + 1 := ⟨fuel - 1, by omega⟩
  have hpl : planeLoop ne (f + 1) 0 0 = some (0, 0) := by
    rw [planeLoop, if_neg]
    have : (1 : ℤ) ≤ ne := by exact_mod_cast hne
    simp only [sub_zero, ge_iff_le, not_le]
    have h2 : (2 : ℤ) ≤ ne * (ne + 1) := by nlinarith
    omega
  have hll : lineLoop ne (f + 1) 0 0 = some (0, 0) := by
    rw [lineLoop, if_neg]
    have : (1 : ℤ) ≤ ne := by exact_mod_cast hne
    omega
  refine ⟨_, by simp only [plotPosition, hg, Nat.cast_zero, hpl, hll]; rfl, ?_⟩
  rintro ⟨w, hw, hs, hp⟩
  have h0 := hp 0 (by norm_num)
  have h1 := hp 1 (by norm_num)
  have h2 := hp 2 (by norm_num)
  have hw0 := hw 0 (by norm_num)
  simp [Finset.sum_range_succ, refVertex, refVerts, coords, psub] at h0 h1 h2 hs
  have hn' : (n : K) + 1 ≤ 3 := by
    have : (n : K) ≤ 2 := by exact_mod_cast hn
    linarith
  have hn0 : (0 : K) < (n : K) + 1 := by positivity
  have : (1 : K) / 3 ≤ ((n : K) + 1)⁻¹ := by
    rw [inv_eq_one_div]; exact one_div_le_one_div_of_le hn0 hn'
  linarith

/-- **C63** (violated on volumes) If the first two DOFs of an element are attached to the volume of a
tetrahedron, the second is put outside it. -/
theorem plotPosition_volume_outside (fuel count : ℕ) (hf : 5 ≤ fuel) :
    ∃ p, plotPosition fuel 3 1 count 1 (refVertex (K := K) .tetrahedron 0)
      (fun m => psub (refVertex .tetrahedron (m + 1)) (refVertex .tetrahedron 0)) = some p ∧
      ¬ Hull 3 4 (refVertex .tetrahedron) p := by
  obtain ⟨f, rfl⟩ : ∃ f, fuel = f + 5 := ⟨fuel - 5, by omega⟩
  refine ⟨_, by simp [plotPosition, growTet, planeLoop, lineLoop]; rfl, ?_⟩
  rintro ⟨w, hw, hs, hp⟩
  have h2 := hp 2 (by norm_num)
  have hw0 := hw 0 (by norm_num)
  have hw1 := hw 1 (by norm_num)
  have hw2 := hw 2 (by norm_num)
  simp [Finset.sum_range_succ, refVertex, refVerts, coords, psub] at h2 hs
  norm_num at h2
  linarith

end

end Verif.FiniteElement
