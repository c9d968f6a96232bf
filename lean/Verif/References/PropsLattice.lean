import Verif.References.PropsContains
import Mathlib.Algebra.BigOperators.Intervals
import Mathlib.Data.List.Nodup
/-!
# Lattices of points (C40)
-/

set_option linter.unusedSectionVars false

namespace Verif.References

/-! ### The index lists -/

theorem nodup_flatMap_key {α : Type} (key : α → ℕ) (l : List ℕ) (hl : l.Nodup) (f : ℕ → List α)
    (h1 : ∀ i, (f i).Nodup) (h2 : ∀ i, ∀ x ∈ f i, key x = i) : (l.flatMap f).Nodup := by
  rw [List.nodup_flatMap]
  refine ⟨fun i _ => h1 i, hl.imp fun {i j} hij x hx hy => hij ?_⟩
  rw [← h2 i x hx, h2 j x hy]

theorem nodup_pairs (m : ℕ) (f : ℕ → ℕ) :
    ((List.range m).flatMap fun i => (List.range (f i)).map fun j => (i, j)).Nodup := by
  apply nodup_flatMap_key (fun x : ℕ × ℕ => x.1) _ List.nodup_range
  · intro i
    exact List.nodup_range.map fun a b h => by simpa using h
  · intro i x hx
    obtain ⟨j, -, rfl⟩ := List.mem_map.1 hx
    rfl

theorem nodup_triples (m : ℕ) (f : ℕ → ℕ) (g : ℕ → ℕ → ℕ) :
    ((List.range m).flatMap fun i => (List.range (f i)).flatMap fun j =>
      (List.range (g i j)).map fun k => (i, j, k)).Nodup := by
  apply nodup_flatMap_key (fun x : ℕ × ℕ × ℕ => x.1) _ List.nodup_range
  · intro i
    apply nodup_flatMap_key (fun x : ℕ × ℕ × ℕ => x.2.1) _ List.nodup_range
    · intro j
      exact List.nodup_range.map fun a b h => by simpa using h
    · intro j x hx
      obtain ⟨k, -, rfl⟩ := List.mem_map.1 hx
      rfl
  · intro i x hx
    simp only [List.mem_flatMap, List.mem_map] at hx
    obtain ⟨j, -, k, -, rfl⟩ := hx
    rfl

theorem mem_triIndices {n : ℕ} {q : ℕ × ℕ} : q ∈ triIndices n ↔ q.1 + q.2 < n := by
  obtain ⟨i, j⟩ := q
  simp only [triIndices, List.mem_flatMap, List.mem_map, List.mem_range, Prod.mk.injEq]
  constructor
  · rintro ⟨a, ha, b, hb, rfl, rfl⟩; omega
  · intro h; exact ⟨i, by omega, j, by omega, rfl, rfl⟩

theorem mem_quadIndices {m : ℕ} {q : ℕ × ℕ} : q ∈ quadIndices m ↔ q.1 < m ∧ q.2 < m := by
  obtain ⟨i, j⟩ := q
  simp only [quadIndices, List.mem_flatMap, List.mem_map, List.mem_range, Prod.mk.injEq]
  constructor
  · rintro ⟨a, ha, b, hb, rfl, rfl⟩; exact ⟨ha, hb⟩
  · rintro ⟨h1, h2⟩; exact ⟨i, h1, j, h2, rfl, rfl⟩

theorem mem_tetIndices {n : ℕ} {q : ℕ × ℕ × ℕ} :
    q ∈ tetIndices n ↔ q.1 + q.2.1 + q.2.2 < n := by
  obtain ⟨i, j, k⟩ := q
  simp only [tetIndices, List.mem_flatMap, List.mem_map, List.mem_range, Prod.mk.injEq]
  constructor
  · rintro ⟨a, ha, b, hb, c, hc, rfl, rfl, rfl⟩; omega
  · intro h; exact ⟨i, by omega, j, by omega, k, by omega, rfl, rfl, rfl⟩

theorem mem_hexIndices {m : ℕ} {q : ℕ × ℕ × ℕ} :
    q ∈ hexIndices m ↔ q.1 < m ∧ q.2.1 < m ∧ q.2.2 < m := by
  obtain ⟨i, j, k⟩ := q
  simp only [hexIndices, List.mem_flatMap, List.mem_map, List.mem_range, Prod.mk.injEq]
  constructor
  · rintro ⟨a, ha, b, hb, c, hc, rfl, rfl, rfl⟩; exact ⟨ha, hb, hc⟩
  · rintro ⟨h1, h2, h3⟩; exact ⟨i, h1, j, h2, k, h3, rfl, rfl, rfl⟩

theorem mem_prismIndices {n : ℕ} {q : ℕ × ℕ × ℕ} :
    q ∈ prismIndices n ↔ q.1 + q.2.1 ≤ n ∧ q.2.2 ≤ n := by
  obtain ⟨i, j, k⟩ := q
  simp only [prismIndices, List.mem_flatMap, List.mem_map, List.mem_range, Prod.mk.injEq]
  constructor
  · rintro ⟨a, ha, b, hb, c, hc, rfl, rfl, rfl⟩; constructor <;> omega
  · rintro ⟨h1, h2⟩; exact ⟨i, by omega, j, by omega, k, by omega, rfl, rfl, rfl⟩

theorem sum_tri (n : ℕ) : 2 * ((List.range n).map fun i => n - i).sum = n * (n + 1) := by
  induction n with
  | zero => rfl
  | succ n ih =>
    rw [List.range_succ_eq_map, List.map_cons, List.map_map, List.sum_cons]
    have : ((fun i => n + 1 - i) ∘ Nat.succ) = fun i => n - i := by
      funext i; simp only [Function.comp]; omega
    rw [this, Nat.mul_add, ih]
    simp only [Nat.sub_zero]
    ring

theorem length_triIndices (n : ℕ) : 2 * (triIndices n).length = n * (n + 1) := by
  rw [triIndices, List.length_flatMap]
  simp only [List.length_map, List.length_range]
  exact sum_tri n

theorem length_quadIndices (m : ℕ) : (quadIndices m).length = m ^ 2 := by
  rw [quadIndices, List.length_flatMap]
  simp [pow_two]

theorem length_tetIndices (n : ℕ) : 6 * (tetIndices n).length = n * (n + 1) * (n + 2) := by
  rw [tetIndices, List.length_flatMap]
  have : ∀ i, ((List.range (n - i)).flatMap fun j =>
      (List.range (n - i - j)).map fun k => (i, j, k)).length = (triIndices (n - i)).length := by
    intro i
    rw [List.length_flatMap, triIndices, List.length_flatMap]
    simp only [List.length_map, List.length_range]
  simp only [this]
  clear this
  induction n with
  | zero => rfl
  | succ n ih =>
    rw [List.range_succ_eq_map, List.map_cons, List.map_map, List.sum_cons]
    have : ((fun i => (triIndices (n + 1 - i)).length) ∘ Nat.succ) =
        fun i => (triIndices (n - i)).length := by
      funext i; simp only [Function.comp]; congr 2; omega
    rw [this, Nat.mul_add, ih]
    have := length_triIndices (n + 1)
    simp only [Nat.sub_zero]
    linarith

theorem length_hexIndices (m : ℕ) : (hexIndices m).length = m ^ 3 := by
  rw [hexIndices, List.length_flatMap]
  simp [pow_succ, mul_assoc]

theorem length_prismIndices (n : ℕ) :
    2 * (prismIndices n).length = (n + 1) * (n + 1) * (n + 2) := by
  rw [prismIndices, List.length_flatMap]
  simp only [List.length_flatMap, List.length_map, List.length_range, List.map_const',
    List.sum_replicate, smul_eq_mul]
  rw [List.sum_map_mul_right, ← mul_assoc, sum_tri (n + 1)]
  ring

/-! ### The points -/

section
variable {K : Type} [Field K] [LinearOrder K] [IsStrictOrderedRing K]

theorem half_pos' (n i : ℕ) : (0 : K) < half n i := by
  unfold half; positivity

theorem half_lt_one {n i : ℕ} (h : i ≤ n) : (half n i : K) < 1 := by
  unfold half
  have : (i : K) ≤ n := by exact_mod_cast h
  rw [div_lt_one (by positivity)]
  linarith

theorem half_inj {n i j : ℕ} (h : (half n i : K) = half n j) : i = j := by
  unfold half at h
  have hn : (2 * ((n : K) + 1)) ≠ 0 := by positivity
  rw [div_left_inj' hn] at h
  have : (i : K) = j := by linarith
  exact_mod_cast this

theorem half_add {n i j : ℕ} : (half n i + half n j : K) = ((i : K) + j + 1) / (n + 1) := by
  unfold half
  have hn : ((n : K) + 1) ≠ 0 := by positivity
  field_simp
  ring

theorem half_add_lt {n i j : ℕ} (h : i + j < n) : (half n i + half n j : K) < 1 := by
  rw [half_add, div_lt_one (by positivity)]
  have : ((i + j : ℕ) : K) < n := by exact_mod_cast h
  push_cast at this
  linarith

theorem half_add3_lt {n i j k : ℕ} (h : i + j + k < n) :
    (half n i + half n j + half n k : K) < 1 := by
  rw [half_add]
  unfold half
  have hn : (0 : K) < (n : K) + 1 := by positivity
  have : ((i + j + k + 1 : ℕ) : K) ≤ n := by exact_mod_cast h
  push_cast at this
  rw [div_add_div _ _ hn.ne' (by positivity), div_lt_one (by positivity)]
  nlinarith

theorem pairwise_differ {ι : Type} {g : ℕ} {l : List ι} (hl : l.Nodup) (f : ι → ℕ → K)
    (h : ∀ a ∈ l, ∀ b ∈ l, (∀ j < g, f a j = f b j) → a = b) :
    (l.map f).Pairwise (Differ g) := by
  rw [List.pairwise_map]
  refine List.Pairwise.imp_of_mem (fun {a b} ha hb hab => ?_) hl
  by_contra hn
  apply hab
  apply h a ha b hb
  intro j hj
  by_contra hne
  exact hn ⟨j, hj, hne⟩

/-- Intervals, in any number of coordinates: `n` different points strictly inside. -/
theorem lattice_interval (g : ℕ) (v : ℕ → ℕ → K) (n : ℕ) :
    ∃ L, lattice .interval g v n = some L ∧ L.length = n ∧ (∀ p ∈ L, StrictHull g 2 v p) ∧
      ((∃ j < g, v 0 j ≠ v 1 j) → L.Pairwise (Differ g)) := by
  refine ⟨_, rfl, by simp, ?_, ?_⟩
  · intro p hp
    simp only [List.mem_map, List.mem_range] at hp
    obtain ⟨i, hi, rfl⟩ := hp
    refine ⟨coords [1 - half n i, half n i], ?_, ?_, ?_⟩
    · intro k hk
      have := half_pos' (K := K) n i
      have := half_lt_one (K := K) hi.le
      interval_cases k <;> simp only [coords, List.getD_cons_zero, List.getD_cons_succ] <;> linarith
    · simp [Finset.sum_range_succ, coords]
    · intro j hj
      simp only [Finset.sum_range_succ, Finset.sum_range_zero, coords, List.getD_cons_zero,
        List.getD_cons_succ]
      ring
  · rintro ⟨j, hj, hv⟩
    apply pairwise_differ List.nodup_range
    intro a _ b _ h
    have := h j hj
    have hne : v 1 j - v 0 j ≠ 0 := sub_ne_zero.2 (Ne.symm hv)
    exact half_inj (mul_left_cancel₀ hne (add_left_cancel this))

theorem half_axes (n i j : ℕ) (o a b : K) :
    o + ((2 * (i : K) + 1) * a + (2 * (j : K) + 1) * b) / 2 / ((n : K) + 1)
      = o + half n i * a + half n j * b := by
  have hn : ((n : K) + 1) ≠ 0 := by positivity
  unfold half
  field_simp
  ring

/-- Triangles, in any number of coordinates: `n(n+1)/2` points strictly inside, different if the
triangle is not degenerate. -/
theorem lattice_triangle (g : ℕ) (v : ℕ → ℕ → K) (n : ℕ) :
    ∃ L, lattice .triangle g v n = some L ∧ 2 * L.length = n * (n + 1) ∧
      (∀ p ∈ L, StrictHull g 3 v p) ∧
      ((Indep g 2 fun k => fun j => v (k + 1) j - v 0 j) → L.Pairwise (Differ g)) := by
  refine ⟨_, rfl, by rw [List.length_map]; exact length_triIndices n, ?_, ?_⟩
  · intro p hp
    obtain ⟨q, hq, rfl⟩ := List.mem_map.1 hp
    rw [mem_triIndices] at hq
    refine ⟨coords [1 - half n q.1 - half n q.2, half n q.1, half n q.2], ?_, ?_, ?_⟩
    · intro k hk
      have := half_pos' (K := K) n q.1
      have := half_pos' (K := K) n q.2
      have := half_add_lt (K := K) hq
      interval_cases k <;> simp only [coords, List.getD_cons_zero, List.getD_cons_succ] <;> linarith
    · simp [Finset.sum_range_succ, coords]; ring
    · intro j hj
      beta_reduce
      rw [half_axes]
      simp only [Finset.sum_range_succ, Finset.sum_range_zero, coords, List.getD_cons_zero,
        List.getD_cons_succ, axis, axisVertices, psub]
      ring
  · intro hI
    apply pairwise_differ (nodup_pairs n fun i => n - i)
    intro a _ b _ h
    have key := hI (fun k => if k = 0 then half n a.1 - half n b.1 else half n a.2 - half n b.2) (by
      intro j hj
      have := h j hj
      simp only [half_axes, axis, axisVertices, psub, List.getD_cons_zero,
        List.getD_cons_succ] at this
      simp [Finset.sum_range_succ]
      linear_combination this)
    have h0 := key 0 (by norm_num)
    have h1 := key 1 (by norm_num)
    simp at h0 h1
    exact Prod.ext (half_inj (sub_eq_zero.1 h0)) (half_inj (sub_eq_zero.1 h1))

/-- Tetrahedra: `n(n+1)(n+2)/6` points strictly inside. -/
theorem lattice_tetrahedron (g : ℕ) (v : ℕ → ℕ → K) (n : ℕ) :
    ∃ L, lattice .tetrahedron g v n = some L ∧ 6 * L.length = n * (n + 1) * (n + 2) ∧
      (∀ p ∈ L, StrictHull g 4 v p) ∧
      ((Indep g 3 fun k => fun j => v (k + 1) j - v 0 j) → L.Pairwise (Differ g)) := by
  have ha : ∀ (i j k : ℕ) (o a b c : K),
      o + ((2 * (i : K) + 1) * a + (2 * (j : K) + 1) * b + (2 * (k : K) + 1) * c) / 2 / ((n : K) + 1)
      = o + half n i * a + half n j * b + half n k * c := by
    intro i j k o a b c
    have hn : ((n : K) + 1) ≠ 0 := by positivity
    unfold half
    field_simp
    ring
  refine ⟨_, rfl, by rw [List.length_map]; exact length_tetIndices n, ?_, ?_⟩
  · intro p hp
    obtain ⟨q, hq, rfl⟩ := List.mem_map.1 hp
    rw [mem_tetIndices] at hq
    refine ⟨coords [1 - half n q.1 - half n q.2.1 - half n q.2.2, half n q.1, half n q.2.1,
      half n q.2.2], ?_, ?_, ?_⟩
    · intro k hk
      have := half_pos' (K := K) n q.1
      have := half_pos' (K := K) n q.2.1
      have := half_pos' (K := K) n q.2.2
      have := half_add3_lt (K := K) hq
      interval_cases k <;> simp only [coords, List.getD_cons_zero, List.getD_cons_succ] <;> linarith
    · simp [Finset.sum_range_succ, coords]; ring
    · intro j hj
      beta_reduce
      rw [ha]
      simp only [Finset.sum_range_succ, Finset.sum_range_zero, coords, List.getD_cons_zero,
        List.getD_cons_succ, axis, axisVertices, psub]
      ring
  · intro hI
    apply pairwise_differ (nodup_triples n (fun i => n - i) fun i j => n - i - j)
    intro a _ b _ h
    have key := hI (coords [half n a.1 - half n b.1, half n a.2.1 - half n b.2.1,
        half n a.2.2 - half n b.2.2]) (by
      intro j hj
      have := h j hj
      simp only [ha, axis, axisVertices, psub, List.getD_cons_zero,
        List.getD_cons_succ] at this
      simp only [Finset.sum_range_succ, Finset.sum_range_zero, coords, List.getD_cons_zero,
        List.getD_cons_succ]
      linear_combination this)
    have h0 : half n a.1 - half n b.1 = (0 : K) := key 0 (by norm_num)
    have h1 : half n a.2.1 - half n b.2.1 = (0 : K) := key 1 (by norm_num)
    have h2 : half n a.2.2 - half n b.2.2 = (0 : K) := key 2 (by norm_num)
    exact Prod.ext (half_inj (sub_eq_zero.1 h0)) (Prod.ext (half_inj (sub_eq_zero.1 h1))
      (half_inj (sub_eq_zero.1 h2)))

/-- Parallelograms: `(n+1)^2` points strictly inside. -/
theorem lattice_parallelogram (g : ℕ) (v : ℕ → ℕ → K)
    (hv : ∀ j < g, v 0 j + v 3 j = v 1 j + v 2 j) (n : ℕ) :
    ∃ L, lattice .quadrilateral g v n = some L ∧ L.length = (n + 1) ^ 2 ∧
      (∀ p ∈ L, StrictHull g 4 v p) ∧
      ((Indep g 2 fun k => fun j => v (k + 1) j - v 0 j) → L.Pairwise (Differ g)) := by
  refine ⟨_, rfl, by rw [List.length_map]; exact length_quadIndices (n + 1), ?_, ?_⟩
  · intro p hp
    obtain ⟨q, hq, rfl⟩ := List.mem_map.1 hp
    rw [mem_quadIndices] at hq
    have x0 := half_pos' (K := K) n q.1
    have y0 := half_pos' (K := K) n q.2
    have x1 : (0 : K) < 1 - half n q.1 := sub_pos.2 (half_lt_one (by omega))
    have y1 : (0 : K) < 1 - half n q.2 := sub_pos.2 (half_lt_one (by omega))
    refine ⟨coords [(1 - half n q.1) * (1 - half n q.2), half n q.1 * (1 - half n q.2),
      (1 - half n q.1) * half n q.2, half n q.1 * half n q.2], ?_, ?_, ?_⟩
    · intro k hk
      interval_cases k <;> simp only [coords, List.getD_cons_zero, List.getD_cons_succ] <;>
        positivity
    · simp only [Finset.sum_range_succ, Finset.sum_range_zero, coords, List.getD_cons_zero,
        List.getD_cons_succ]
      ring
    · intro j hj
      beta_reduce
      rw [half_axes]
      have := hv j hj
      simp only [Finset.sum_range_succ, Finset.sum_range_zero, coords, List.getD_cons_zero,
        List.getD_cons_succ, axis, axisVertices, psub]
      have h3 : v 3 j = v 1 j + v 2 j - v 0 j := by linarith
      rw [h3]
      ring
  · intro hI
    apply pairwise_differ (nodup_pairs (n + 1) fun _ => n + 1)
    intro a _ b _ h
    have key := hI (fun k => if k = 0 then half n a.1 - half n b.1 else half n a.2 - half n b.2) (by
      intro j hj
      have := h j hj
      simp only [half_axes, axis, axisVertices, psub, List.getD_cons_zero,
        List.getD_cons_succ] at this
      simp [Finset.sum_range_succ]
      linear_combination this)
    have h0 := key 0 (by norm_num)
    have h1 := key 1 (by norm_num)
    simp at h0 h1
    exact Prod.ext (half_inj (sub_eq_zero.1 h0)) (half_inj (sub_eq_zero.1 h1))

/-- For other quadrilaterals the lattice can leave the cell: convex, with corners (0, 0), (1, 0),
(0, 1), (3/5, 3/5) and `n = 1`. -/
theorem lattice_quadrilateral_leaves :
    let v : ℕ → ℕ → ℚ := fun i => coords ([[0, 0], [1, 0], [0, 1], [3/5, 3/5]].getD i [])
    ∃ L, lattice .quadrilateral 2 v 1 = some L ∧ ∃ p ∈ L, ¬Hull 2 4 v p := by
  intro v
  refine ⟨_, rfl, _, List.mem_map.2 ⟨(1, 1), by rw [mem_quadIndices]; decide, rfl⟩, ?_⟩
  rintro ⟨lam, h0, h1, hp⟩
  have p0 := hp 0 (by norm_num)
  have p1 := hp 1 (by norm_num)
  have := h0 0 (by norm_num); have := h0 1 (by norm_num)
  have := h0 2 (by norm_num); have := h0 3 (by norm_num)
  simp [Finset.sum_range_succ, v, coords, axis, axisVertices, psub] at p0 p1 h1
  linarith

/-- The default hexahedron: `(n+1)^3` different points strictly inside. -/
theorem lattice_hexahedron (v : ℕ → ℕ → K) (hd : isDefault .hexahedron 3 v = true) (n : ℕ) :
    ∃ L, lattice .hexahedron 3 v n = some L ∧ L.length = (n + 1) ^ 3 ∧
      (∀ p ∈ L, StrictHull 3 8 v p) ∧ L.Pairwise (Differ 3) := by
  obtain ⟨-, hv⟩ := (isDefault_iff _ _ _).1 hd
  refine ⟨_, by rw [lattice, if_pos hd], by rw [List.length_map]; exact length_hexIndices _, ?_, ?_⟩
  · intro p hp
    obtain ⟨q, hq, rfl⟩ := List.mem_map.1 hp
    rw [mem_hexIndices] at hq
    have x0 := half_pos' (K := K) n q.1
    have y0 := half_pos' (K := K) n q.2.1
    have z0 := half_pos' (K := K) n q.2.2
    have x1 : (0 : K) < 1 - half n q.1 := sub_pos.2 (half_lt_one (by omega))
    have y1 : (0 : K) < 1 - half n q.2.1 := sub_pos.2 (half_lt_one (by omega))
    have z1 : (0 : K) < 1 - half n q.2.2 := sub_pos.2 (half_lt_one (by omega))
    refine ⟨coords (weights .hexahedron (coords [half n q.1, half n q.2.1, half n q.2.2])), ?_, ?_,
      ?_⟩
    · intro k hk
      interval_cases k <;> simp only [coords, weights, List.getD_cons_zero, List.getD_cons_succ] <;>
        positivity
    · simp only [Finset.sum_range_succ, Finset.sum_range_zero, coords, weights,
        List.getD_cons_zero, List.getD_cons_succ]
      ring
    · intro j hj
      rw [Finset.sum_congr rfl fun i hi => by rw [hv i (Finset.mem_range.1 hi) j hj]]
      interval_cases j <;>
      · simp only [Finset.sum_range_succ, Finset.sum_range_zero, coords, weights,
          List.getD_cons_zero, List.getD_cons_succ, refVertex, refVerts]
        ring
  · apply pairwise_differ (nodup_triples (n + 1) (fun _ => n + 1) fun _ _ => n + 1)
    intro a _ b _ h
    exact Prod.ext (half_inj (h 0 (by norm_num))) (Prod.ext (half_inj (h 1 (by norm_num)))
      (half_inj (h 2 (by norm_num))))

/-- The default prism: all points are in the cell, and the point with indices `(i, j, k)` is strictly
inside exactly when `i + j < n`. -/
theorem lattice_prism_partial (v : ℕ → ℕ → K) (hd : isDefault .prism 3 v = true) (n : ℕ) :
    ∃ L, lattice .prism 3 v n = some L ∧ 2 * L.length = (n + 1) * (n + 1) * (n + 2) ∧
      (∀ p ∈ L, Hull 3 6 v p) ∧ (∀ p ∈ L, StrictHull 3 6 v p ↔ p 0 + p 1 < 1) ∧
      L.Pairwise (Differ 3) := by
  obtain ⟨-, hv⟩ := (isDefault_iff _ _ _).1 hd
  have hsum : ∀ (q : K × K × K), ∀ j < 3, coords [q.1, q.2.1, q.2.2] j =
      ∑ i ∈ Finset.range 6, coords (weights .prism (coords [q.1, q.2.1, q.2.2])) i * v i j := by
    intro q j hj
    rw [Finset.sum_congr rfl fun i hi => by rw [hv i (Finset.mem_range.1 hi) j hj]]
    interval_cases j <;>
    · simp only [Finset.sum_range_succ, Finset.sum_range_zero, coords, weights,
        List.getD_cons_zero, List.getD_cons_succ, refVertex, refVerts]
      ring
  have hone : ∀ q : K × K × K,
      ∑ i ∈ Finset.range 6, coords (weights .prism (coords [q.1, q.2.1, q.2.2])) i = 1 := by
    intro q
    simp only [Finset.sum_range_succ, Finset.sum_range_zero, coords, weights,
      List.getD_cons_zero, List.getD_cons_succ]
    ring
  refine ⟨_, by rw [lattice, if_pos hd], by rw [List.length_map]; exact length_prismIndices _, ?_,
    ?_, ?_⟩
  · intro p hp
    obtain ⟨q, hq, rfl⟩ := List.mem_map.1 hp
    rw [mem_prismIndices] at hq
    have x0 := half_pos' (K := K) n q.1
    have y0 := half_pos' (K := K) n q.2.1
    have z0 := half_pos' (K := K) n q.2.2
    have xy : (0 : K) ≤ 1 - half n q.1 - half n q.2.1 := by
      have h := half_add (K := K) (n := n) (i := q.1) (j := q.2.1)
      have : ((q.1 + q.2.1 : ℕ) : K) ≤ n := by exact_mod_cast hq.1
      push_cast at this
      have : (half n q.1 + half n q.2.1 : K) ≤ 1 := by
        rw [h, div_le_one (by positivity)]; linarith
      linarith
    have z1 : (0 : K) < 1 - half n q.2.2 := sub_pos.2 (half_lt_one (by omega))
    refine ⟨coords (weights .prism (coords [half n q.1, half n q.2.1, half n q.2.2])), ?_,
      hone (_, _, _), hsum (_, _, _)⟩
    intro k hk
    interval_cases k <;> simp only [coords, weights, List.getD_cons_zero, List.getD_cons_succ] <;>
      positivity
  · intro p hp
    obtain ⟨q, hq, rfl⟩ := List.mem_map.1 hp
    rw [mem_prismIndices] at hq
    have x0 := half_pos' (K := K) n q.1
    have y0 := half_pos' (K := K) n q.2.1
    have z0 := half_pos' (K := K) n q.2.2
    have z1 : (0 : K) < 1 - half n q.2.2 := sub_pos.2 (half_lt_one (by omega))
    constructor
    · rintro ⟨lam, h0, h1, hp⟩
      have p0 := hp 0 (by norm_num)
      have p1 := hp 1 (by norm_num)
      rw [Finset.sum_congr rfl fun i hi => by
        rw [hv i (Finset.mem_range.1 hi) _ (by norm_num)]] at p0 p1
      have := h0 0 (by norm_num)
      have := h0 3 (by norm_num)
      simp [Finset.sum_range_succ, refVertex, refVerts, coords] at p0 p1 h1
      simp only [coords, List.getD_cons_zero, List.getD_cons_succ]
      linarith
    · intro hlt
      have xy : (0 : K) < 1 - half n q.1 - half n q.2.1 := by
        simp only [coords, List.getD_cons_zero, List.getD_cons_succ] at hlt
        linarith
      refine ⟨coords (weights .prism (coords [half n q.1, half n q.2.1, half n q.2.2])), ?_,
        hone (_, _, _), hsum (_, _, _)⟩
      intro k hk
      interval_cases k <;> simp only [coords, weights, List.getD_cons_zero, List.getD_cons_succ] <;>
        positivity
  · apply pairwise_differ (nodup_triples (n + 1) (fun i => n + 1 - i) fun _ _ => n + 1)
    intro a _ b _ h
    exact Prod.ext (half_inj (h 0 (by norm_num))) (Prod.ext (half_inj (h 1 (by norm_num)))
      (half_inj (h 2 (by norm_num))))

/-- For every `n` the prism lattice has a point on the boundary of the cell. -/
theorem lattice_prism_on_boundary (v : ℕ → ℕ → K) (hd : isDefault .prism 3 v = true) (n : ℕ) :
    ∃ L, lattice .prism 3 v n = some L ∧ ∃ p ∈ L, ¬StrictHull 3 6 v p := by
  obtain ⟨L, hL, -, -, hs, -⟩ := lattice_prism_partial v hd n
  have hL' := hL
  rw [lattice, if_pos hd, Option.some.injEq] at hL'
  have hm : coords [half n n, half n 0, half n 0] ∈ L := by
    rw [← hL']
    exact List.mem_map.2 ⟨(n, 0, 0), by rw [mem_prismIndices]; simp, rfl⟩
  refine ⟨L, hL, _, hm, ?_⟩
  rw [hs _ hm]
  simp only [coords, List.getD_cons_zero, List.getD_cons_succ]
  rw [half_add]
  have hn : ((n : K) + 1) ≠ 0 := by positivity
  simp [div_self hn]

/-- Concrete case: the default prism satisfies the hypothesis, and `n = 1` gives six points. -/
example : isDefault .prism 3 (refVertex (K := ℚ) .prism) = true := by
  rw [isDefault_iff]; exact ⟨rfl, fun _ _ _ _ => rfl⟩

end

end Verif.References
