import Verif.Families.BoxDiv
import Verif.Families.PropsFull
/-!
# `BDFM` on quadrilaterals and hexahedra
-/

namespace Verif.Families
open Verif.References Verif.Moments Verif.Functionals Verif.Elements Verif.FiniteElement Verif.Polysets Verif.Orthogonal
open MvPolynomial

/-! ### Model -/

/-- The exponents of the polynomials added by `bdfm_polyset` on a quadrilateral (symfem/elements/bdfm.py:36-40) and on a
hexahedron (lines 48-54), with the numbers of their components. -/
def bdfmKeys (d k : ℕ) : List (ℕ × Mono) :=
  if d = 2 then (List.range' 1 k).flatMap fun i : ℕ => [(0, [i, k - i]), (1, [k - i, i])]
  else (List.range' 1 k).flatMap fun i : ℕ => (List.range (k + 1 - i)).flatMap fun j : ℕ =>
    [(0, [i, j, k - i - j]), (1, [j, i, k - i - j]), (2, [j, k - i - j, i])]

/-- `bdfm_polyset(reference, order)` (symfem/elements/bdfm.py:23-70) on a quadrilateral or hexahedron. -/
def bdfmBoxSet (d k : ℕ) : Option (List VecPoly) :=
  (polySetVector d d ((k : ℤ) - 1)).map fun a => a ++ (bdfmKeys d k).map fun t => unitVec d t.1 (monoPoly t.2)

/-- The classes used on quadrilaterals and hexahedra. -/
noncomputable def dpcClasses (name : String) : ElementClass Fun :=
  if name = "DPC" then dpcClass else if name = "VectorDPC" then vectorDpcClass else noClass

/-- `BDFM(reference, order, variant)` (symfem/elements/bdfm.py:76-102) on a quadrilateral or hexahedron. -/
noncomputable def bdfmBox (variant : String) (c : Cell) (k : ℕ) : Option (Element ℝ (Field c.tdim)) :=
  momentElement dpcClasses c (bdfmBoxSet c.tdim k)
    { facets := some (.single [.cls "NormalIntegralMoment", .cls "DPC", .int ((k : ℤ) - 1), .dict [("variant", variant)]])
      cells := some (.single [.cls "IntegralMoment", .cls "VectorDPC", .int ((k : ℤ) - 2), .dict [("variant", variant)]]) }

/-! ### The space -/

/-- Polynomials of degree `k - 1`, and `x_i` times these. -/
noncomputable def XP (d : ℕ) (k : ℤ) (i : ℕ) : Submodule ℝ (MvPolynomial ℕ ℝ) :=
  P d (k - 1) ⊔ (P d (k - 1)).map (LinearMap.mulLeft ℝ (X i))

theorem mem_XP {d : ℕ} {k : ℤ} {i : ℕ} {p : MvPolynomial ℕ ℝ} :
    p ∈ XP d k i ↔ ∃ q ∈ P d (k - 1), ∃ r ∈ P d (k - 1), p = q + X i * r := by
  rw [XP, Submodule.mem_sup]
  constructor
  · rintro ⟨q, hq, _, ⟨r, hr, rfl⟩, rfl⟩
    exact ⟨q, hq, r, hr, rfl⟩
  · rintro ⟨q, hq, r, hr, rfl⟩
    exact ⟨q, hq, _, ⟨r, hr, rfl⟩, rfl⟩

/-- The BDFM space on a quadrilateral or hexahedron: component `i` has degree at most `k`, and its terms of degree `k`
are multiples of `x_i`. -/
def BDFMQ (d : ℕ) (k : ℤ) (v : Field d) : Prop :=
  ∀ i : Fin d, ∃ q ∈ P d (k - 1), ∃ r ∈ P d (k - 1), v i = q + X i.val * r

theorem BDFMQ.mem {d : ℕ} {k : ℤ} {v : Field d} (h : BDFMQ d k v) (i : Fin d) : v i ∈ P d k := by
  obtain ⟨q, hq, r, hr, e⟩ := h i
  rw [e]
  refine Submodule.add_mem _ (P_mono (by omega) hq) ?_
  have := X_mul_mem i.2 hr
  rwa [sub_add_cancel] at this

theorem X_mul_denoteMono {m : Mono} {i : ℕ} (h : i < m.length) :
    X i * denoteMono ℝ m = denoteMono ℝ (m.set i (m.getD i 0 + 1)) := by
  suffices ∀ (m : Mono) (s i : ℕ), i < m.length → X (s + i) * monoFrom ℝ s m = monoFrom ℝ s (m.set i (m.getD i 0 + 1)) by
    have := this m 0 i h
    rwa [zero_add] at this
  intro m
  induction m with
  | nil => intro s i hi; simp at hi
  | cons a t ih =>
    intro s i hi
    cases i with
    | zero => simp [monoFrom, pow_succ]; ring
    | succ i =>
      have := ih (s + 1) i (by simpa using hi)
      rw [show s + 1 + i = s + (i + 1) by ring] at this
      simp only [monoFrom, List.set_cons_succ, List.getD_cons_succ, ← this]
      ring

theorem sum_set_succ {m : Mono} {i : ℕ} (h : i < m.length) : (m.set i (m.getD i 0 + 1)).sum = m.sum + 1 := by
  induction m generalizing i with
  | nil => simp at h
  | cons a t ih =>
    cases i with
    | zero => simp; omega
    | succ i =>
      simp only [List.set_cons_succ, List.sum_cons, List.getD_cons_succ]
      rw [ih (by simpa using h)]
      omega

theorem sum_set_pred {m : Mono} {i : ℕ} (h : 1 ≤ m.getD i 0) :
    (m.set i (m.getD i 0 - 1)).sum + 1 = m.sum ∧ (m.set i (m.getD i 0 - 1)).set i ((m.set i (m.getD i 0 - 1)).getD i 0 + 1) = m := by
  induction m generalizing i with
  | nil => simp at h
  | cons a t ih =>
    cases i with
    | zero =>
      simp at h ⊢
      constructor <;> omega
    | succ i =>
      simp only [List.set_cons_succ, List.sum_cons, List.getD_cons_succ] at h ⊢
      obtain ⟨h1, h2⟩ := ih h
      rw [h2]
      exact ⟨by omega, rfl⟩

theorem getD_lt {m : Mono} {i : ℕ} (h : 1 ≤ m.getD i 0) : i < m.length := by
  by_contra hc
  rw [List.getD_eq_default _ _ (by omega)] at h
  omega

theorem mem_bdfmKeys {d : ℕ} (hd : d = 2 ∨ d = 3) {k : ℕ} {a : ℕ × Mono} :
    a ∈ bdfmKeys d k ↔ a.1 < d ∧ a.2.length = d ∧ a.2.sum = k ∧ 1 ≤ a.2.getD a.1 0 := by
  obtain ⟨c, m⟩ := a
  rcases hd with rfl | rfl
  · simp only [bdfmKeys, if_true, List.mem_flatMap, List.mem_range'_1, List.mem_cons, List.not_mem_nil, or_false, Prod.mk.injEq]
    constructor
    · rintro ⟨i, hi, ⟨rfl, rfl⟩ | ⟨rfl, rfl⟩⟩ <;> simp <;> omega
    · rintro ⟨hc, hl, hs, h1⟩
      obtain ⟨p, q, rfl⟩ := List.length_eq_two.1 hl
      simp only [List.sum_cons, List.sum_nil, add_zero] at hs
      interval_cases c
      · refine ⟨p, by simp at h1; omega, Or.inl ⟨rfl, ?_⟩⟩
        rw [show k - p = q by omega]
      · refine ⟨q, by simp at h1; omega, Or.inr ⟨rfl, ?_⟩⟩
        rw [show k - q = p by omega]
  · simp only [bdfmKeys, show ¬ (3 = 2) by omega, if_false, List.mem_flatMap, List.mem_range'_1, List.mem_range, List.mem_cons,
      List.not_mem_nil, or_false, Prod.mk.injEq]
    constructor
    · rintro ⟨i, hi, j, hj, ⟨rfl, rfl⟩ | ⟨rfl, rfl⟩ | ⟨rfl, rfl⟩⟩ <;> simp <;> omega
    · rintro ⟨hc, hl, hs, h1⟩
      obtain ⟨p, q, r, rfl⟩ := List.length_eq_three.1 hl
      simp only [List.sum_cons, List.sum_nil, add_zero] at hs
      interval_cases c
      · refine ⟨p, by simp at h1; omega, q, by omega, Or.inl ⟨rfl, ?_⟩⟩
        rw [show k - p - q = r by omega]
      · refine ⟨q, by simp at h1; omega, p, by omega, Or.inr (Or.inl ⟨rfl, ?_⟩)⟩
        rw [show k - q - p = r by omega]
      · refine ⟨r, by simp at h1; omega, p, by omega, Or.inr (Or.inr ⟨rfl, ?_⟩)⟩
        rw [show k - r - p = q by omega]

theorem nodup_bdfmKeys (d k : ℕ) : (bdfmKeys d k).Nodup := by
  unfold bdfmKeys
  split_ifs
  · refine nodup_flatMap_of_key (key := fun b => b.2.getD b.1 0) (k := fun i => i) Function.injective_id
      (List.nodup_range' (step := 1)) (fun i _ => by simp) fun i _ b hb => ?_
    simp only [List.mem_cons, List.not_mem_nil, or_false] at hb
    rcases hb with rfl | rfl <;> rfl
  · refine nodup_flatMap_of_key (key := fun b => b.2.getD b.1 0) (k := fun i => i) Function.injective_id
      (List.nodup_range' (step := 1)) (fun i _ => ?_) fun i _ b hb => ?_
    · refine nodup_flatMap_of_key (key := fun b => if b.1 = 0 then b.2.getD 1 0 else b.2.getD 0 0) (k := fun j => j)
        Function.injective_id List.nodup_range (fun j _ => by simp) fun j _ b hb => ?_
      simp only [List.mem_cons, List.not_mem_nil, or_false] at hb
      rcases hb with rfl | rfl | rfl <;> rfl
    · simp only [List.mem_flatMap, List.mem_cons, List.not_mem_nil, or_false] at hb
      obtain ⟨j, -, rfl | rfl | rfl⟩ := hb <;> rfl

theorem length_bdfmKeys {d : ℕ} (hd : d = 2 ∨ d = 3) (k : ℕ) : (bdfmKeys d k).length = d * (k + d - 2).choose (d - 1) := by
  rcases hd with rfl | rfl
  · simp [bdfmKeys, List.length_flatMap, mul_comm]
  · simp only [bdfmKeys, show ¬ (3 = 2) by omega, if_false, List.length_flatMap, List.length_cons, List.length_nil,
      List.map_const', List.sum_replicate, List.length_range, smul_eq_mul]
    have : ∀ k : ℕ, ((List.range' 1 k).map fun i : ℕ => (k + 1 - i) * 3).sum = 3 * (k + 1).choose 2 := by
      intro k
      have e : ((List.range' 1 k).map fun i : ℕ => (k + 1 - i) * 3) = (List.range k).map fun i : ℕ => (k - i) * 3 := by
        rw [List.range'_eq_map_range, List.map_map]
        refine List.map_congr_left fun i _ => ?_
        simp only [Function.comp_apply]
        congr 1
        omega
      rw [e, sum_map_range, ← Finset.sum_mul, mul_comm]
      congr 1
      rw [show (k + 1).choose 2 = ∑ i ∈ Finset.range (k + 1), i from by rw [Finset.sum_range_id, Nat.choose_two_right],
        Finset.sum_range_succ', ← Finset.sum_range_reflect, add_zero]
      refine Finset.sum_congr rfl fun i hi => ?_
      have := Finset.mem_range.1 hi
      omega
    exact this k

theorem bdfmBox_spec {d : ℕ} (hd : d = 2 ∨ d = 3) (k : ℕ) : ∃ pl, bdfmBoxSet d k = some pl ∧
    Independent ℝ (pl.map (denoteVec ℝ d)) ∧ (∀ v, v ∈ lspan (pl.map (denoteVec ℝ d)) ↔ BDFMQ d k v) ∧
    ∃ ps, polySet d ((k : ℤ) - 1) = some ps ∧ pl.length = ps.length * d + d * (k + d - 2).choose (d - 1) := by
  obtain ⟨ps, hps, hnd, hmem⟩ := polySet_spec d (by omega) ((k : ℤ) - 1)
  have hpl : bdfmBoxSet d k = some ((vkeys d ps ++ bdfmKeys d k).map fun t => unitVec d t.1 (monoPoly t.2)) := by
    rw [bdfmBoxSet, polySetVector, hps, Option.map_some, Option.map_some, vectorSet_eq_vkeys, List.map_append]
  have hm : ∀ a, a ∈ vkeys d ps ++ bdfmKeys d k ↔
      a.1 < d ∧ a.2.length = d ∧ ((a.2.sum : ℤ) ≤ k - 1 ∨ a.2.sum = k ∧ 1 ≤ a.2.getD a.1 0) := by
    intro a
    rw [List.mem_append, mem_vkeys, mem_bdfmKeys hd, hmem]
    tauto
  refine ⟨_, hpl, ?_, fun v => ?_, ps, hps, ?_⟩
  · refine independent_units ℝ d d _ ?_ (fun a ha => ((hm a).1 ha).1) fun a ha => ((hm a).1 ha).2.1
    rw [List.nodup_append]
    refine ⟨nodup_vkeys hnd, nodup_bdfmKeys d k, ?_⟩
    rintro a ha b hb rfl
    have h1 := ((hmem _).1 (mem_vkeys.1 ha).2).2
    have h2 := ((mem_bdfmKeys hd).1 hb).2.2.1
    omega
  · have hmu := mem_map_units ℝ d (vkeys d ps ++ bdfmKeys d k) fun a ha => ((hm a).1 ha).1
    constructor
    · intro hv i
      suffices v i ∈ XP d k i.val from mem_XP.1 this
      have : lspan (((vkeys d ps ++ bdfmKeys d k).map fun t => unitVec d t.1 (monoPoly t.2)).map (denoteVec ℝ d)) ≤
          (XP d k i.val).comap (LinearMap.proj i) := by
        rw [Submodule.span_le]
        intro q hq
        obtain ⟨j, m, hjm, rfl⟩ := (hmu q).1 hq
        obtain ⟨-, hl, h⟩ := (hm _).1 hjm
        show (Pi.single j (denoteMono ℝ m) : Field d) i ∈ XP d k i.val
        by_cases hij : i = j
        · subst hij
          rw [Pi.single_eq_same]
          rcases h with h | ⟨hs, h1⟩
          · exact mem_XP.2 ⟨_, denoteMono_mem hl h, 0, Submodule.zero_mem _, by simp⟩
          · obtain ⟨e1, e2⟩ := sum_set_pred h1
            refine mem_XP.2 ⟨0, Submodule.zero_mem _, denoteMono ℝ (m.set i.val (m.getD i.val 0 - 1)), denoteMono_mem (by simpa using hl) ?_, ?_⟩
            · have : (m.set i.val (m.getD i.val 0 - 1)).sum + 1 = k := e1.trans hs
              omega
            · rw [zero_add, X_mul_denoteMono (by simpa using getD_lt h1)]
              exact (congrArg (denoteMono ℝ) e2).symm
        · rw [Pi.single_eq_of_ne hij]
          exact Submodule.zero_mem _
      exact this hv
    · intro hv
      have e : v = ∑ i, Pi.single i (v i) := by
        funext j
        rw [Finset.sum_apply, Finset.sum_eq_single j]
        · rw [Pi.single_eq_same]
        · intro i _ hi
          rw [Pi.single_eq_of_ne (Ne.symm hi)]
        · intro h; exact absurd (Finset.mem_univ _) h
      rw [e]
      refine Submodule.sum_mem _ fun i _ => ?_
      obtain ⟨q, hq, r, hr, e⟩ := hv i
      rw [e, Pi.single_add]
      refine Submodule.add_mem _ ?_ ?_
      · exact P_le (LinearMap.single ℝ (fun _ : Fin d => MvPolynomial ℕ ℝ) i) _ (fun m hl hs => mem_lspan ((hmu _).2
          ⟨i, m, (hm _).2 ⟨i.2, hl, Or.inl hs⟩, rfl⟩)) hq
      · refine P_le (LinearMap.single ℝ (fun _ : Fin d => MvPolynomial ℕ ℝ) i ∘ₗ LinearMap.mulLeft ℝ (X i.val)) _ (fun m hl hs => ?_) hr
        show (Pi.single i (X i.val * denoteMono ℝ m) : Field d) ∈ lspan (((vkeys d ps ++ bdfmKeys d k).map fun t => unitVec d t.1 (monoPoly t.2)).map (denoteVec ℝ d))
        have hi : i.val < m.length := by rw [hl]; exact i.2
        rw [X_mul_denoteMono hi]
        refine mem_lspan ((hmu _).2 ⟨i, _, (hm _).2 ⟨i.2, by simpa using hl, ?_⟩, rfl⟩)
        show ((m.set i.val (m.getD i.val 0 + 1)).sum : ℤ) ≤ k - 1 ∨ (m.set i.val (m.getD i.val 0 + 1)).sum = k ∧
          1 ≤ (m.set i.val (m.getD i.val 0 + 1)).getD i.val 0
        rw [sum_set_succ hi, List.getD_eq_getElem _ _ (by simpa using hi), List.getElem_set_self]
        omega
  · rw [List.length_map, List.length_append, length_bdfmKeys hd]
    simp [vkeys, List.length_flatMap]

/-! ### The functionals determine the functions -/

theorem P_bub {d : ℕ} {k : ℤ} (j : ℕ) {p : MvPolynomial ℕ ℝ} (hp : p ∈ P d k)
    (h : ∀ z : ℕ → ℝ, z j = 0 ∨ z j = 1 → eval z p = 0) : ∃ w ∈ P d (k - 2), p = bub j * w := by
  obtain ⟨q, rfl⟩ := X_dvd j fun z hz => h z (Or.inl hz)
  have hq := X_cancel hp
  obtain ⟨r, rfl⟩ := dvd_of_vanish (p := q) j (C 1) fun z => by
    have := h (fun i => if i = j then 1 else z i) (Or.inr (by simp))
    rw [map_mul, eval_X, if_pos rfl, one_mul] at this
    simpa using this
  have h1 : (X j - C 1 : MvPolynomial ℕ ℝ).totalDegree = 1 := by
    refine degree_one (d := j + 1) (i := j) ?_ ?_
    · exact Submodule.sub_mem _ (X_mem (Nat.lt_succ_self j)) (C_mem _ (by norm_num))
    · rw [coeff_sub, coeff_X_single, if_pos rfl, coeff_C, if_neg (Finsupp.single_ne_zero.2 one_ne_zero).symm]
      norm_num
  have hr := P_cancel h1 hq
  refine ⟨-r, Submodule.neg_mem _ (by rwa [show k - 1 - 1 = k - 2 by ring] at hr), ?_⟩
  rw [bub, C_1]
  ring

/-- A function of degree `k` with no normal components and no moments of degree `k - 2` is zero. -/
theorem box_zero {c : Cell} (hc : Box c) {k : ℤ} {v : Field c.tdim} (hv : ∀ i, v i ∈ P c.tdim k)
    (hn : ∀ (i : Fin c.tdim) (z : ℕ → ℝ), z i.val = 0 ∨ z i.val = 1 → eval z (v i) = 0)
    (h : ∀ q ∈ PV c.tdim c.tdim (k - 2), pairing c v q = 0) : v = 0 := by
  choose w hw e using fun i : Fin c.tdim => P_bub i.val (hv i) (hn i)
  have := h w (mem_PV.2 hw)
  rw [pairing_apply, show ∑ i, v i * w i = ∑ i : Fin c.tdim, bub i.val * w i ^ 2 from Finset.sum_congr rfl fun i _ => by
    rw [e i]; ring] at this
  funext i
  rw [e i, squares_zero hc.solid (fun i : Fin c.tdim => bub i.val) (fun i z hz => closed_bub hc hz i.2)
    (fun i z hz => inner_bub (hz i.val i.2)) w hw this i, mul_zero, Pi.zero_apply]

/-- The trace of a component on the facets with constant value of its coordinate. -/
theorem facet_pull {c : Cell} (hc : Box c) {i : ℕ} (hi : i < 2 * c.tdim) {k : ℤ} {p : MvPolynomial ℕ ℝ} (hp : p ∈ P c.tdim k) :
    pull (entityDomain c (c.tdim - 1, i)) p ∈ P (c.tdim - 1) k := by
  obtain ⟨F1, -⟩ := box_facet hc hi
  have := pull_mem (entityDomain c (c.tdim - 1, i)) hp
  rwa [F1, qFacetCell_tdim hc] at this

theorem facet_coord {c : Cell} (hc : Box c) {i : ℕ} (hi : i < 2 * c.tdim) :
    pull (entityDomain c (c.tdim - 1, i)) (X (qAxis c.tdim i)) = C (qVal c.tdim i) := by
  obtain ⟨-, F2, -⟩ := box_facet hc hi
  rw [pull_X, F2.aligned.coord_const fun k _ => (skip_ne _ k).symm, F2.start, if_pos rfl]

theorem choose_pred_add {d k : ℕ} (hd : d = 2 ∨ d = 3) {ps : List Mono} (h : polySet d ((k : ℤ) - 1) = some ps) :
    ps.length = (k + d - 1).choose d := by
  rcases k with _ | k
  · rcases hd with rfl | rfl <;> simp [polySet, pyRange] at h <;> subst h <;> rfl
  · rw [show ((k + 1 : ℕ) : ℤ) - 1 = (k : ℕ) by push_cast; ring] at h
    rw [polySet_length _ _ _ h]
    congr 1
    omega

/-- The dimension of the BDFM space. -/
def bdfmCount (d k : ℕ) : ℕ := (k + d - 1).choose d * d + d * (k + d - 2).choose (d - 1)

/-- **C93.** `BDFM` elements on quadrilaterals and hexahedra. -/
theorem bdfmBox_created {c : Cell} (hc : Box c) {k : ℕ} (hk : 1 ≤ k) :
    Created (bdfmBox "equispaced" c k) (BDFMQ c.tdim k) (bdfmCount c.tdim k) (QNormalTrace c (BDFMQ c.tdim k)) := by
  obtain ⟨pl, hpoly, hind, hS, ps, hps, hpl⟩ := bdfmBox_spec hc.dims k
  obtain ⟨xs, hx, hxs, hxl⟩ := sub_dpc (qFacetCell_tensor c) (classes := dpcClasses) rfl "NormalIntegralMoment" ((k : ℤ) - 1) none
  obtain ⟨ys, hy, hys, hyl⟩ := sub_vectorDpc hc (classes := dpcClasses) rfl "IntegralMoment" ((k : ℤ) - 2) none [("variant", "equispaced")]
  rw [qFacetCell_tdim hc] at hxs hxl
  have hpl' : pl.length = bdfmCount c.tdim k := by rw [hpl, choose_pred_add hc.dims hps]; rfl
  rw [← hpl']
  refine box_created hc hpoly hind hS (fun v hv => hv.mem) rfl rfl hx hy rfl rfl (fun v hv i hi => ?_) (fun v hv hn hp => ?_) ?_
  · rw [hxs]
    obtain ⟨q, hq, r, hr, e⟩ := hv ⟨qAxis c.tdim i, qAxis_lt hi⟩
    rw [e, pull_add, pull_mul, facet_coord hc hi]
    exact Submodule.add_mem _ (facet_pull hc hi hq) (C_mul_mem _ (facet_pull hc hi hr))
  · exact box_zero hc hv.mem hn fun q hq => hp q (by rw [hys]; exact hq)
  · rw [hpl', hxl, hyl, if_neg (by omega), bdfmCount]
    rcases hc with rfl | rfl
    · rcases k with _ | _ | n
      · omega
      · rfl
      · rw [if_neg (by omega), show (((n + 1 + 1 : ℕ) : ℤ) - 1).toNat = n + 1 by omega, show (((n + 1 + 1 : ℕ) : ℤ) - 2).toNat = n by omega]
        have h1 := choose_two (n + 1)
        have h2 := choose_two n
        simp only [Cell.tdim, Nat.add_one_sub_one, Nat.reduceSub, Nat.reduceAdd, Nat.choose_one_right]
        rw [show n + 1 + 1 + 2 - 2 = n + 2 by omega]
        have h3 : (n + 3).choose 2 = (n + 1 + 2).choose 2 := rfl
        nlinarith
    · rcases k with _ | _ | n
      · omega
      · rfl
      · rw [if_neg (by omega), show (((n + 1 + 1 : ℕ) : ℤ) - 1).toNat = n + 1 by omega, show (((n + 1 + 1 : ℕ) : ℤ) - 2).toNat = n by omega]
        have h1 := choose_three (n + 1)
        have h2 := choose_three n
        have h3 := choose_two (n + 1)
        simp only [Cell.tdim, Nat.reduceSub, Nat.reduceAdd]
        rw [show n + 1 + 1 + 3 - 1 = n + 1 + 3 by omega, show n + 1 + 1 + 3 - 2 = n + 1 + 2 by omega]
        nlinarith

example : ∃ basis dofs fs, bdfmBox "equispaced" .hexahedron 3 = some (.ciarlet basis dofs) ∧
    getBasis (.ciarlet basis dofs) = some fs ∧ fs.length = 48 := by
  obtain ⟨b, d, fs, h1, h2, -, h3, -⟩ := bdfmBox_created (c := .hexahedron) (Or.inr rfl) (k := 3) (by omega)
  exact ⟨b, d, fs, h1, h2, h3⟩

end Verif.Families
