import Verif.Families.BoxParts
import Verif.Smooth.Chain
/-!
# Trimmed serendipity elements

`TrimmedSerendipityHdiv` on quadrilaterals and hexahedra.
-/

namespace Verif.Families
open Verif.References Verif.Moments Verif.Functionals Verif.Elements Verif.FiniteElement Verif.Polysets Verif.Orthogonal
open MvPolynomial

/-! ### Model -/

/-- `IntegralAgainst(reference, f, entity, mapping)` with a vector `f` (symfem/functionals.py:938-1010) in a vector space of
functions: `f` is divided by the Jacobian of the cell and mapped to the entity by `contravariant`, whose Jacobian has the axes
of the entity as columns and is divided by its determinant (the norm of the cross product for faces of cells in three
dimensions; the reference cells are positively oriented).  The wrong number of components is an `AssertionError`. -/
noncomputable def againstDof (c : Cell) (e : ℕ × ℕ) (mapping : String) (f : List (MvPolynomial ℕ ℝ)) :
    Option (Dof ℝ (Field c.tdim)) :=
  let D := entityDomain c e
  if f.length = D.cell.tdim then
    (jacobian (entityDomain c (c.tdim, 0)).cell c.tdim (entityDomain c (c.tdim, 0)).v).bind fun J0 =>
      (jacobian D.cell D.g D.v).map fun J =>
        ⟨14, e, some mapping, momentMap D J fun i => ∑ k : Fin D.cell.tdim, C (axis D.cell D.v k i / J) * (C (1 / J0) * f.getD k 0)⟩
  else none

/-- `ScalarFunction(m).grad(d)` (symfem/functions.py:760-766). -/
noncomputable def gradList (d : ℕ) (m : Mono) : List (MvPolynomial ℕ ℝ) := (gradPoly d (monoPoly m)).map (denotePoly ℝ)

/-- The functions added to the vectors of polynomials in two dimensions (symfem/elements/trimmed_serendipity.py:164-174). -/
def tsdivAdd2 (k : ℕ) : List VecPoly :=
  ((List.range k).map fun j : ℕ => [[(1, [j + 1, k - 1 - j])], [(1, [j, k - j])]]) ++
  if k = 1 then [[[(1, [1, 0])], [(-1, [0, 1])]]]
  else [[[((k : ℤ), [1, k - 1])], [(-1, [0, k])]], [[(-1, [k, 0])], [((k : ℤ), [k - 1, 1])]]]

/-- The functions added to the vectors of polynomials in three dimensions (symfem/elements/trimmed_serendipity.py:176-187). -/
def tsdivAdd3 (k : ℕ) : List VecPoly :=
  ((List.range k).flatMap fun i : ℕ => (List.range (k - i)).map fun j : ℕ =>
    [[(1, [i + 1, j, k - 1 - i - j])], [(1, [i, j + 1, k - 1 - i - j])], [(1, [i, j, k - 1 - i - j + 1])]]) ++
  (List.range k).flatMap fun i : ℕ =>
    [curlVec [[], [(-1, [1, i, k - 1 - i + 1])], [(1, [1, i + 1, k - 1 - i])]],
     curlVec [[(-1, [i, 1, k - 1 - i + 1])], [], [(1, [i + 1, 1, k - 1 - i])]]] ++
    if 1 < k then [curlVec [[(-1, [i, k - 1 - i + 1, 1])], [(1, [i + 1, k - 1 - i, 1])], []]] else []

/-- The polynomials of `TrimmedSerendipityHdiv` (symfem/elements/trimmed_serendipity.py:161-187). -/
def tsdivSet (d k : ℕ) : Option (List VecPoly) :=
  (polySetVector d d ((k : ℤ) - 1)).map fun a => a ++ if d = 2 then tsdivAdd2 k else tsdivAdd3 k

/-- The monomials whose gradients are used (symfem/elements/trimmed_serendipity.py:196-206). -/
def tsdivMonos (d k : ℕ) : List Mono :=
  if d = 2 then (List.range k).map fun i : ℕ => [k - 1 - i, i]
  else (List.range k).flatMap fun i : ℕ => (List.range (k - i)).map fun j : ℕ => [k - 1 - i - j, i, j]

/-- An element with moments and other functionals. -/
noncomputable def momentElementWith (classes : String → ElementClass Fun) (c : Cell) (poly : Option (List VecPoly)) (args : Args)
    (extra : Option (List (Dof ℝ (Field c.tdim)))) : Option (Element ℝ (Field c.tdim)) :=
  poly.bind fun poly => (makeIntegralMomentDofs classes c args).bind fun ms => (ms.mapM (momentDof c)).bind fun dofs =>
    extra.bind fun ex => ciarlet (poly.map (denoteVec ℝ c.tdim)) (dofs ++ ex)

/-- `TrimmedSerendipityHdiv(reference, order, variant)` (symfem/elements/trimmed_serendipity.py:150-214). -/
noncomputable def tsdiv (variant : String) (c : Cell) (k : ℕ) : Option (Element ℝ (Field c.tdim)) :=
  momentElementWith dpcClasses c (tsdivSet c.tdim k)
    { facets := some (.single [.cls "NormalIntegralMoment", .cls "DPC", .int ((k : ℤ) - 1), .dict [("variant", variant)]])
      cells := some (.single [.cls "IntegralMoment", .cls "VectorDPC", .int ((k : ℤ) - 3), .str "covariant",
        .dict [("variant", variant)]]) }
    (if 2 ≤ k then (tsdivMonos c.tdim k).mapM fun m => againstDof c (c.tdim, 0) "covariant" (gradList c.tdim m) else some [])

/-! ### The spaces -/

/-- The Raviart–Thomas space (of polynomials of degree `k - 1` and the fields `x q`) with more functions. -/
def TSdiv (d k : ℕ) (ext : Set (Field d)) (v : Field d) : Prop :=
  ∃ p : Field d, RTSpace d (k : ℤ) p ∧ ∃ w ∈ Submodule.span ℝ ext, v = p + w

/-- The functions added on a quadrilateral: the curls of `x y^k` and `x^k y`. -/
def tsdivExt2 (k : ℕ) : Set (Field 2) :=
  {![pderiv 1 (X 0 * X 1 ^ k), -pderiv 0 (X 0 * X 1 ^ k)], ![pderiv 1 (X 0 ^ k * X 1), -pderiv 0 (X 0 ^ k * X 1)]}

section
variable {d n : ℕ} {ms : List Mono} {rads : List VecPoly}

/-- The field `x q`. -/
noncomputable def radial (d : ℕ) : MvPolynomial ℕ ℝ →ₗ[ℝ] Field d := LinearMap.pi fun i => LinearMap.mulLeft ℝ (X i.val)

theorem radial_apply (q : MvPolynomial ℕ ℝ) (i : Fin d) : radial d q i = X i.val * q := rfl

/-- The divergence as a linear map. -/
noncomputable def divL (d : ℕ) : Field d →ₗ[ℝ] MvPolynomial ℕ ℝ := ∑ i : Fin d, (pderiv i.val).toLinearMap ∘ₗ LinearMap.proj i

theorem divL_apply (v : Field d) : divL d v = divergence ℝ v := by simp [divL, divergence, LinearMap.sum_apply]

theorem divL_mem {k : ℤ} {v : Field d} (hv : ∀ i, v i ∈ P d k) : divL d v ∈ P d (k - 1) := by
  rw [divL_apply]
  exact Submodule.sum_mem _ fun i _ => Smooth.pderiv_mem (hv i) _

theorem divL_radial {k : ℤ} {q : MvPolynomial ℕ ℝ} (hq : q ∈ P d k) : divL d (radial d q) - ((d : ℝ) + k) • q ∈ P d (k - 1) := by
  rw [divL_apply]
  exact div_radial hq

theorem lspan_radial (hms : ∀ m ∈ ms, m.length = d ∧ m.sum = n) {w : Field d} (hw : w ∈ lspan (ms.map fun m => radial d (denoteMono ℝ m))) :
    ∃ r ∈ P d (n : ℤ), w = radial d r := by
  induction hw using Submodule.span_induction with
  | mem v hv =>
    obtain ⟨m, hm, rfl⟩ := List.mem_map.1 hv
    exact ⟨_, denoteMono_mem (hms m hm).1 (by rw [(hms m hm).2]), rfl⟩
  | zero => exact ⟨0, Submodule.zero_mem _, (map_zero _).symm⟩
  | add x y _ _ hx hy =>
    obtain ⟨r, hr, rfl⟩ := hx
    obtain ⟨s, hs, rfl⟩ := hy
    exact ⟨r + s, Submodule.add_mem _ hr hs, (map_add _ _ _).symm⟩
  | smul a x _ hx =>
    obtain ⟨r, hr, rfl⟩ := hx
    exact ⟨a • r, Submodule.smul_mem _ _ hr, (map_smul _ _ _).symm⟩

/-- A function of the Raviart–Thomas space whose divergence has lower degree. -/
theorem rt_low {v : Field d} (hd : 0 < d) (hv : RTSpace d ((n : ℤ) + 1) v) (h : divL d v ∈ P d ((n : ℤ) - 1)) (i : Fin d) : v i ∈ P d (n : ℤ) := by
  obtain ⟨r, hr, hvr⟩ := hv
  rw [add_sub_cancel_right] at hr hvr
  have e : divL d (radial d r) = divL d v - divL d (fun i => v i - X i.val * r) := by
    rw [← map_sub]
    congr 1
    funext i
    simp [radial_apply]
  have h1 : divL d (radial d r) ∈ P d ((n : ℤ) - 1) := by
    rw [e]
    exact Submodule.sub_mem _ h (divL_mem hvr)
  rw [divL_apply] at h1
  have h2 := radial_low (by omega) hr h1
  have h3 := X_mul_mem i.2 h2
  rw [sub_add_cancel] at h3
  have := Submodule.add_mem _ (hvr i) h3
  rwa [sub_add_cancel] at this

variable {κ : Type} {keys : List κ} {f : κ → VecPoly} {l : κ → List (ℤ × ℕ × Mono)}

/-- The list of polynomials is linearly independent and spans the space. -/
theorem ts_spec (hd : d = 2 ∨ d = 3) (hn : ms.Nodup) (hms : ∀ m, m ∈ ms ↔ m.length = d ∧ m.sum = n)
    (hr : rads.map (denoteVec ℝ d) = ms.map fun m => radial d (denoteMono ℝ m)) (D : Dual d n keys f l)
    (hdiv : ∀ a ∈ keys, divL d (denoteVec ℝ d (f a)) = 0) :
    ∃ a, polySetVector d d n = some a ∧ Independent ℝ ((a ++ (rads ++ keys.map f)).map (denoteVec ℝ d)) ∧
      (∀ v, v ∈ lspan ((a ++ (rads ++ keys.map f)).map (denoteVec ℝ d)) ↔
        TSdiv d (n + 1) {w | w ∈ (keys.map f).map (denoteVec ℝ d)} v) ∧
      (a ++ (rads ++ keys.map f)).length = (n + d).choose d * d + (ms.length + keys.length) := by
  obtain ⟨pl, h1, hi, hS, hlen, hlow⟩ := D.spec hd
  obtain ⟨a, ha, ha2, ha3, ha4⟩ := poly_vector hd n
  obtain rfl : a = pl := Option.some.inj (ha.symm.trans h1)
  have hext : ∀ w ∈ lspan ((keys.map f).map (denoteVec ℝ d)), divL d w = 0 := by
    intro w hw
    have : lspan ((keys.map f).map (denoteVec ℝ d)) ≤ LinearMap.ker (divL d) := by
      refine Submodule.span_le.2 fun v hv => ?_
      obtain ⟨F, hF, rfl⟩ := List.mem_map.1 hv
      obtain ⟨b, hb, rfl⟩ := List.mem_map.1 hF
      exact hdiv b hb
    exact this hw
  have hpa : ∀ p ∈ lspan (a.map (denoteVec ℝ d)), ∀ i, p i ∈ P d (n : ℤ) := fun p hp i => (ha3 p).1 hp i
  have hrl : rads.length = ms.length := by
    have := congrArg List.length hr
    simpa using this
  -- the functions `x q` are independent of the rest
  have hdk : ((d : ℝ) + (n : ℤ)) ≠ 0 := by
    have : 0 < d := by omega
    push_cast
    positivity
  have hL : ∀ m ∈ ms, ∀ v : Field d, divL d v ∈ P d ((n : ℤ) - 1) → coeff (expo 0 m) (divL d v) = 0 := by
    intro m hm v hv
    refine coeff_eq_zero_of_degree hv ?_
    rw [expo_degree, ((hms m).1 hm).2]
    omega
  have hrad : ∀ m ∈ ms, ∀ m' ∈ ms, coeff (expo 0 m) (divL d (radial d (denoteMono ℝ m'))) = if m = m' then (d : ℝ) + (n : ℤ) else 0 := by
    intro m hm m' hm'
    obtain ⟨l1, l2⟩ := (hms m).1 hm
    obtain ⟨l3, l4⟩ := (hms m').1 hm'
    have h2 := divL_radial (k := (n : ℤ)) (d := d) (denoteMono_mem (m := m') l3 (by rw [l4]))
    have h3 := coeff_eq_zero_of_degree h2 (t := expo 0 m) (by rw [expo_degree, l2]; omega)
    rw [coeff_sub, sub_eq_zero, coeff_smul] at h3
    rw [h3, denoteMono, monoFrom_eq, coeff_monomial]
    by_cases he : m = m'
    · rw [if_pos he, he, if_pos rfl, smul_eq_mul, mul_one]
    · rw [if_neg he, if_neg fun hc => he (expo_inj (l1.trans l3.symm) hc.symm), smul_zero]
  let low : Submodule ℝ (Field d) := (P d ((n : ℤ) - 1)).comap (divL d)
  obtain ⟨hI, hZ⟩ := enrich_dual (low := low) (keys := ms) (f := fun m => radial d (denoteMono ℝ m))
    (L := fun m => lcoeff ℝ (expo 0 m) ∘ₗ divL d) hn
    (fun m hm => by
      show coeff (expo 0 m) (divL d _) ≠ 0
      rw [hrad m hm m hm, if_pos rfl]
      exact hdk)
    (fun m hm m' hm' hne => by
      show coeff (expo 0 m) (divL d _) = 0
      rw [hrad m hm m' hm', if_neg hne])
    (fun m hm v hv => hL m hm v hv) (base := a.map (denoteVec ℝ d)) (fun p hp => divL_mem (hpa p hp)) ha2
  rw [← hr, ← List.map_append] at hI
  rw [← hr] at hZ
  have hiext : Independent ℝ ((keys.map f).map (denoteVec ℝ d)) := by
    have := independent_of_dual (f := fun b => denoteVec ℝ d (f b)) (L := fun b => flMap d (l b)) D.nodup
      (fun b hb => by
        rw [flMap_eq (D.len b hb) fun t ht => ⟨(D.low b hb t ht).1, (D.low b hb t ht).2.1⟩]
        exact_mod_cast D.diag b hb)
      (fun b hb b' hb' hne => by
        rw [flMap_eq (D.len b' hb') fun t ht => ⟨(D.low b hb t ht).1, (D.low b hb t ht).2.1⟩]
        exact_mod_cast D.off b hb b' hb' hne)
    rwa [List.map_map]
  have hzero : ∀ w ∈ lspan ((keys.map f).map (denoteVec ℝ d)), (∀ i, w i ∈ P d (n : ℤ)) → w = 0 := by
    intro w hw h
    refine zero_of_dual (f := fun b => denoteVec ℝ d (f b)) (L := fun b => flMap d (l b)) (keys := keys)
      (fun b hb => by
        rw [flMap_eq (D.len b hb) fun t ht => ⟨(D.low b hb t ht).1, (D.low b hb t ht).2.1⟩]
        exact_mod_cast D.diag b hb)
      (fun b hb b' hb' hne => by
        rw [flMap_eq (D.len b' hb') fun t ht => ⟨(D.low b hb t ht).1, (D.low b hb t ht).2.1⟩]
        exact_mod_cast D.off b hb b' hb' hne) (by rwa [List.map_map] at hw) fun b hb => ?_
    exact flMap_low (D.low b hb) (PV_le_Low d n h)
  refine ⟨a, ha, ?_, fun v => ?_, ?_⟩
  · rw [← List.append_assoc, List.map_append]
    refine independent_append hI hiext ?_
    rw [Submodule.disjoint_def]
    intro w hw hw'
    rw [List.map_append, lspan_append, Submodule.mem_sup] at hw
    obtain ⟨p, hp, q, hq, e⟩ := hw
    have h2 : q = 0 := hZ p hp q hq (by
      rw [e]
      show divL d w ∈ P d ((n : ℤ) - 1)
      rw [hext w hw']
      exact Submodule.zero_mem _)
    rw [h2, add_zero] at e
    exact hzero w hw' (e ▸ hpa p hp)
  · rw [← List.append_assoc, List.map_append, lspan_append, Submodule.mem_sup]
    have hRT : ∀ p, p ∈ lspan ((a ++ rads).map (denoteVec ℝ d)) ↔ RTSpace d ((n + 1 : ℕ) : ℤ) p := by
      intro p
      rw [List.map_append, lspan_append, Submodule.mem_sup, RTSpace]
      push_cast
      rw [add_sub_cancel_right]
      constructor
      · rintro ⟨p, hp, q, hq, rfl⟩
        rw [hr] at hq
        obtain ⟨r, hr, rfl⟩ := lspan_radial (fun m hm => (hms m).1 hm) hq
        refine ⟨r, hr, fun i => ?_⟩
        rw [Pi.add_apply, radial_apply, add_sub_cancel_right]
        exact hpa p hp i
      · rintro ⟨r, hr', h⟩
        have h2 : radial d r ∈ lspan (a.map (denoteVec ℝ d)) ⊔ lspan (rads.map (denoteVec ℝ d)) := by
          refine P_le (radial d) _ (fun m hl hs => ?_) hr'
          by_cases he : m.sum = n
          · refine Submodule.mem_sup_right ?_
            rw [hr]
            exact mem_lspan (List.mem_map.2 ⟨m, (hms m).2 ⟨hl, he⟩, rfl⟩)
          · refine Submodule.mem_sup_left ((ha3 _).2 fun i => ?_)
            have := X_mul_mem i.2 (denoteMono_mem (k := (n : ℤ) - 1) hl (by omega))
            rwa [sub_add_cancel] at this
        have h3 : (fun i => p i - X i.val * r) ∈ lspan (a.map (denoteVec ℝ d)) ⊔ lspan (rads.map (denoteVec ℝ d)) :=
          Submodule.mem_sup_left ((ha3 _).2 h)
        have h4 := Submodule.add_mem _ h3 h2
        rw [show (fun i => p i - X i.val * r) + radial d r = p by funext i; simp [radial_apply]] at h4
        exact Submodule.mem_sup.1 h4
    constructor
    · rintro ⟨p, hp, w, hw, rfl⟩
      exact ⟨p, (hRT p).1 hp, w, hw, rfl⟩
    · rintro ⟨p, hp, w, hw, rfl⟩
      exact ⟨p, (hRT p).2 hp, w, hw, rfl⟩
  · rw [List.length_append, List.length_append, List.length_map, hrl, ha4]

/-- A function with no normal components and no moments is zero. -/
theorem ts_zero {c : Cell} (hc : Box c) (D : Dual c.tdim n keys f l)
    (hdiv : ∀ a ∈ keys, divL c.tdim (denoteVec ℝ c.tdim (f a)) = 0) {v : Field c.tdim}
    (hv : TSdiv c.tdim (n + 1) {w | w ∈ (keys.map f).map (denoteVec ℝ c.tdim)} v)
    (hn : ∀ (i : Fin c.tdim) (z : ℕ → ℝ), z i.val = 0 ∨ z i.val = 1 → eval z (v i) = 0)
    (hg : ∀ q ∈ P c.tdim (n : ℤ), pairing c v (gradient ℝ c.tdim q) = 0)
    (hp : ∀ q ∈ PV c.tdim c.tdim ((n : ℤ) - 2), pairing c v q = 0) : v = 0 := by
  obtain ⟨pl, h1, hi, hS, hlen, hlow⟩ := D.spec hc.dims
  obtain ⟨p, hRT, w, hw, rfl⟩ := hv
  push_cast at hRT
  have hw0 : divL c.tdim w = 0 := by
    have : lspan ((keys.map f).map (denoteVec ℝ c.tdim)) ≤ LinearMap.ker (divL c.tdim) := by
      refine Submodule.span_le.2 fun v hv => ?_
      obtain ⟨F, hF, rfl⟩ := List.mem_map.1 hv
      obtain ⟨b, hb, rfl⟩ := List.mem_map.1 hF
      exact hdiv b hb
    exact this hw
  have hm : ∀ i, (p + w) i ∈ P c.tdim ((n : ℤ) + 1) := fun i => Submodule.add_mem _ (hRT.mem i) (XP_le i.2 (D.XP hw i))
  have h0 : divL c.tdim (p + w) = 0 := by
    have h2 := divL_mem hm
    rw [add_sub_cancel_right] at h2
    rw [divL_apply] at h2 ⊢
    exact box_div_zero hc hm h2 hn hg
  have hpn : ∀ i, p i ∈ P c.tdim (n : ℤ) := rt_low (by have := hc.dims; omega) hRT (by
    rw [map_add, hw0, add_zero] at h0
    rw [h0]
    exact Submodule.zero_mem _)
  refine box_zero hc (k := (n : ℤ)) (hlow (p + w) ⟨p, hpn, w, hw, rfl⟩ fun j m _ h2 h3 => ?_) hn hp
  exact coeff_of_bub (hm j) (hn j) h2 h3

end

/-! ### Functionals given by a function -/

theorem box_axis {c : Cell} (hc : Box c) {k j : ℕ} (hk : k < c.tdim) (hj : j < c.tdim) :
    axis (entityDomain c (c.tdim, 0)).cell (entityDomain c (c.tdim, 0)).v k j = if j = k then 1 else 0 := by
  rcases hc with rfl | rfl
  · have hv : ∀ j k, (entityDomain .quadrilateral (2, 0)).v j k =
      refVertex .quadrilateral ((entVerts .quadrilateral 2 0).getD j 0) k := fun _ _ => rfl
    have e0 : entVerts .quadrilateral 2 0 = [0, 1, 2, 3] := rfl
    have hc : (entityDomain .quadrilateral (2, 0)).cell = .quadrilateral := rfl
    simp only [Cell.tdim] at hj hk
    show axis (entityDomain .quadrilateral (2, 0)).cell (entityDomain .quadrilateral (2, 0)).v k j = _
    rw [hc]
    interval_cases j <;> interval_cases k <;> norm_num [axis, psub, hv, e0, axisVertices, refVertex, refVerts, coords]
  · have hv : ∀ j k, (entityDomain .hexahedron (3, 0)).v j k =
      refVertex .hexahedron ((entVerts .hexahedron 3 0).getD j 0) k := fun _ _ => rfl
    have e0 : entVerts .hexahedron 3 0 = [0, 1, 2, 3, 4, 5, 6, 7] := rfl
    have hc : (entityDomain .hexahedron (3, 0)).cell = .hexahedron := rfl
    simp only [Cell.tdim] at hj hk
    show axis (entityDomain .hexahedron (3, 0)).cell (entityDomain .hexahedron (3, 0)).v k j = _
    rw [hc]
    interval_cases j <;> interval_cases k <;> norm_num [axis, psub, hv, e0, axisVertices, refVertex, refVerts, coords]

/-- The functional on an entity, given its Jacobian. -/
theorem against_entity {c : Cell} (hc : Box c) {e : ℕ × ℕ} {J : ℝ} (hJ : J ≠ 0)
    (hj : jacobian (entityDomain c e).cell c.tdim (entityDomain c e).v = some J) {f : List (MvPolynomial ℕ ℝ)}
    (hf : f.length = (entityDomain c e).cell.tdim) (mp : String) :
    ∃ d, againstDof c e mp f = some d ∧ d.entity = e ∧
      ∀ v : Field c.tdim, d.eval v = pairing (entityDomain c e).cell (tang (entityDomain c e) v) fun k => f.getD k.val 0 := by
  unfold againstDof
  simp only [if_pos hf, box_jacobian hc, Option.bind_some]
  have hj' : jacobian (entityDomain c e).cell (entityDomain c e).g (entityDomain c e).v = some J := hj
  rw [hj', Option.map_some]
  refine ⟨_, rfl, rfl, fun v => ?_⟩
  have := momentMap_push (entityDomain c e) hJ (fun k => C (1 / (1 : ℝ)) * f.getD k.val 0) v
  refine this.trans ?_
  congr 1
  funext k
  rw [div_one, C_1, one_mul]

theorem gradList_length (d : ℕ) (m : Mono) : (gradList d m).length = d := by simp [gradList, gradPoly]

theorem gradList_getD {d : ℕ} (m : Mono) {i : ℕ} (hi : i < d) : (gradList d m).getD i 0 = pderiv i (denoteMono ℝ m) := by
  rw [List.getD_eq_getElem _ _ (by rw [gradList_length]; exact hi)]
  simp only [gradList, gradPoly, List.getElem_map, List.getElem_range, denotePoly_diff, denotePoly_monoPoly]

/-- The functional of the cell. -/
theorem against_cell {c : Cell} (hc : Box c) (m : Mono) (mp : String) :
    ∃ d, againstDof c (c.tdim, 0) mp (gradList c.tdim m) = some d ∧ d.entity = (c.tdim, 0) ∧
      ∀ (v : Field c.tdim) (k : ℤ), (∀ j, v j ∈ P c.tdim k) → d.eval v = pairing c v (gradient ℝ c.tdim (denoteMono ℝ m)) := by
  have hcell : (entityDomain c (c.tdim, 0)).cell = c := by rcases hc with rfl | rfl <;> rfl
  obtain ⟨d, h1, h2, h3⟩ := against_entity hc one_ne_zero (box_jacobian hc) (f := gradList c.tdim m)
    (by rw [gradList_length, hcell]) mp
  refine ⟨d, h1, h2, fun v k hv => (h3 v).trans ?_⟩
  have key : ∀ (t : Cell) (ht : t = c) (w u : Field t.tdim), (∀ (j : ℕ) (h : j < t.tdim) z, eval z (w ⟨j, h⟩) = eval z (v ⟨j, ht ▸ h⟩)) →
      (∀ (j : ℕ) (h : j < t.tdim), u ⟨j, h⟩ = pderiv j (denoteMono ℝ m)) → pairing t w u = pairing c v (gradient ℝ c.tdim (denoteMono ℝ m)) := by
    intro t ht w u hw hu
    subst ht
    rw [pairing_apply, pairing_apply]
    congr 1
    funext z
    rw [map_sum, map_sum]
    refine Finset.sum_congr rfl fun j _ => ?_
    rw [map_mul, map_mul, hu j.val j.2, hw j.val j.2]
    rfl
  refine key _ hcell _ _ (fun j h z => ?_) fun j h => gradList_getD m (by rwa [hcell] at h)
  have hj : j < c.tdim := by rwa [hcell] at h
  show eval z (comp (entityDomain c (c.tdim, 0)) (axis (entityDomain c (c.tdim, 0)).cell (entityDomain c (c.tdim, 0)).v j) v) = _
  refine (eval_comp (entityDomain c (c.tdim, 0)) _ v z).trans ?_
  show ∑ i : Fin c.tdim, _ = _
  rw [Finset.sum_eq_single ⟨j, hj⟩]
  · rw [box_axis hc hj hj, if_pos rfl, one_mul, eval_congr_P (hv _) fun l hl => box_param hc z hl]
  · intro i _ hi
    rw [box_axis hc hj i.2, if_neg fun hc => hi (Fin.ext hc), zero_mul]
  · intro hn; exact absurd (Finset.mem_univ _) hn

/-! ### The elements -/

theorem gradient_mem {d : ℕ} {k : ℤ} {q : MvPolynomial ℕ ℝ} (hq : q ∈ P d k) : gradient ℝ d q ∈ PV d d (k - 1) :=
  mem_PV.2 fun _ => Smooth.pderiv_mem hq _

section
variable {c : Cell} {n : ℕ} {ms : List Mono} {rads : List VecPoly} {κ : Type} {keys : List κ} {f : κ → VecPoly}
  {l : κ → List (ℤ × ℕ × Mono)}

/-- The creation of the element, given the list of polynomials. -/
theorem ts_created (hc : Box c) (hnd : ms.Nodup) (hms : ∀ m, m ∈ ms ↔ m.length = c.tdim ∧ m.sum = n)
    (hr : rads.map (denoteVec ℝ c.tdim) = ms.map fun m => radial c.tdim (denoteMono ℝ m)) (D : Dual c.tdim n keys f l)
    (hdiv : ∀ a ∈ keys, divL c.tdim (denoteVec ℝ c.tdim (f a)) = 0)
    (hset : tsdivSet c.tdim (n + 1) = (polySetVector c.tdim c.tdim n).map fun a => a ++ (rads ++ keys.map f))
    (hmono : ∀ m, m ∈ tsdivMonos c.tdim (n + 1) ↔ m.length = c.tdim ∧ m.sum = n)
    (hcount : 2 * c.tdim * (n + (c.tdim - 1)).choose (c.tdim - 1) +
      (if (n : ℤ) - 2 < 0 then 0 else (((n : ℤ) - 2).toNat + c.tdim).choose c.tdim * c.tdim) +
      (if 1 ≤ n then (tsdivMonos c.tdim (n + 1)).length else 0) =
      (n + c.tdim).choose c.tdim * c.tdim + (ms.length + keys.length)) :
    Created (tsdiv "equispaced" c (n + 1)) (TSdiv c.tdim (n + 1) {w | w ∈ (keys.map f).map (denoteVec ℝ c.tdim)})
      ((n + c.tdim).choose c.tdim * c.tdim + (ms.length + keys.length))
      (QNormalTrace c (TSdiv c.tdim (n + 1) {w | w ∈ (keys.map f).map (denoteVec ℝ c.tdim)})) := by
  obtain ⟨a, ha, hi, hS, hlen⟩ := ts_spec hc.dims hnd hms hr D hdiv
  rw [ha, Option.map_some] at hset
  obtain ⟨xs, hx, hxs, hxl⟩ := sub_dpc (qFacetCell_tensor c) (classes := dpcClasses) rfl "NormalIntegralMoment" (n : ℤ) none
  obtain ⟨ys, hy, hys, hyl⟩ := sub_vectorDpc hc (classes := dpcClasses) rfl "IntegralMoment" ((n : ℤ) - 2) (some "covariant")
    [("variant", "equispaced")]
  rw [qFacetCell_tdim hc] at hxs hxl
  have hms' := box_moments (classes := dpcClasses) hc
    (A := [.cls "NormalIntegralMoment", .cls "DPC", .int (n : ℤ), .dict [("variant", "equispaced")]])
    (B := [.cls "IntegralMoment", .cls "VectorDPC", .int ((n : ℤ) - 2), .str "covariant", .dict [("variant", "equispaced")]])
    rfl rfl hx hy rfl rfl
  obtain ⟨dofs, hdofs⟩ := box_dofs hc none (some "covariant") xs ys
  obtain ⟨ex, hex, hexl, hexv⟩ : ∃ ex : List (Dof ℝ (Field c.tdim)),
      (if 2 ≤ n + 1 then (tsdivMonos c.tdim (n + 1)).mapM fun m => againstDof c (c.tdim, 0) "covariant" (gradList c.tdim m)
        else some []) = some ex ∧ ex.length = (if 1 ≤ n then (tsdivMonos c.tdim (n + 1)).length else 0) ∧
      (1 ≤ n → ∀ m : Mono, m.length = c.tdim → m.sum = n → ∃ d ∈ ex,
        ∀ (v : Field c.tdim) (k : ℤ), (∀ j, v j ∈ P c.tdim k) → d.eval v = pairing c v (gradient ℝ c.tdim (denoteMono ℝ m))) := by
    by_cases h1 : 1 ≤ n
    · obtain ⟨ex, hex⟩ := mapM_exists (f := fun m => againstDof c (c.tdim, 0) "covariant" (gradList c.tdim m))
        (l := tsdivMonos c.tdim (n + 1)) fun m _ => by
          obtain ⟨d, hd, -⟩ := against_cell hc m "covariant"
          exact ⟨d, hd⟩
      refine ⟨ex, by rw [if_pos (by omega), hex], by rw [if_pos h1]; exact (mapM_forall hex).length_eq.symm, fun _ m hl hs => ?_⟩
      obtain ⟨d, hd, he⟩ := forall₂_mem_right (mapM_forall hex) ((hmono m).2 ⟨hl, hs⟩)
      obtain ⟨d', hd', -, hv⟩ := against_cell hc m "covariant"
      obtain rfl := Option.some.inj (hd'.symm.trans he)
      exact ⟨d', hd, hv⟩
    · exact ⟨[], by rw [if_neg (by omega)], by rw [if_neg h1]; rfl, fun h => absurd h h1⟩
  have hX : ∀ v, TSdiv c.tdim (n + 1) {w | w ∈ (keys.map f).map (denoteVec ℝ c.tdim)} v →
      ∀ j : Fin c.tdim, v j ∈ XP c.tdim ((n : ℤ) + 1) j := by
    rintro v ⟨p, ⟨r, hr, hp⟩, w, hw, rfl⟩ j
    push_cast at hr hp
    refine Submodule.add_mem _ (mem_XP.2 ⟨_, hp j, r, hr, by rw [sub_add_cancel]⟩) (D.XP hw j)
  have htr : QNormalTrace c (TSdiv c.tdim (n + 1) {w | w ∈ (keys.map f).map (denoteVec ℝ c.tdim)}) (dofs ++ ex) := by
    refine box_trace hc hdofs ex (k := (n : ℤ) + 1) (fun v hv j => XP_le j.2 (hX v hv j)) fun v hv i hi => ?_
    rw [hxs]
    obtain ⟨q, hq, r, hr, e⟩ := mem_XP.1 (hX v hv ⟨qAxis c.tdim i, qAxis_lt hi⟩)
    rw [add_sub_cancel_right] at hq hr
    rw [e, pull_add, pull_mul, facet_coord hc hi]
    exact Submodule.add_mem _ (facet_pull hc hi hq) (C_mul_mem _ (facet_pull hc hi hr))
  have hu : ∀ v, TSdiv c.tdim (n + 1) {w | w ∈ (keys.map f).map (denoteVec ℝ c.tdim)} v →
      (∀ d ∈ dofs ++ ex, d.eval v = 0) → v = 0 := by
    intro v hv h
    have hm : ∀ j, v j ∈ P c.tdim ((n : ℤ) + 1) := fun j => XP_le j.2 (hX v hv j)
    have hp : ∀ q ∈ PV c.tdim c.tdim ((n : ℤ) - 2), pairing c v q = 0 := fun q hq =>
      box_pairing hc hdofs hm (fun d hd => h d (List.mem_append_left _ hd)) (by rw [hys]; exact hq)
    refine ts_zero hc D hdiv hv (box_normalZero fun i hi => htr i hi v hv fun d hd _ => h d hd) (fun q hq => ?_) hp
    refine (Submodule.mem_bot ℝ).1 (P_le (pairing c v ∘ₗ LinearMap.pi fun i : Fin c.tdim => (pderiv i.val).toLinearMap) ⊥
      (fun m hl hs => ?_) hq)
    rw [Submodule.mem_bot]
    show pairing c v (gradient ℝ c.tdim (denoteMono ℝ m)) = 0
    by_cases he : m.sum = n ∧ 1 ≤ n
    · obtain ⟨d, hd, h2⟩ := hexv he.2 m hl he.1
      rw [← h2 v _ hm]
      exact h d (List.mem_append_right _ hd)
    · by_cases h0 : n = 0
      · have : denoteMono ℝ m ∈ P c.tdim 0 := denoteMono_mem hl (by omega)
        have h2 := gradient_mem this
        have h3 : gradient ℝ c.tdim (denoteMono ℝ m) = 0 := funext fun i => P_neg (by norm_num) (mem_PV.1 h2 i)
        rw [h3, map_zero]
      · have h2 := gradient_mem (denoteMono_mem (m := m) (k := (n : ℤ) - 1) hl (by omega))
        rw [show (n : ℤ) - 1 - 1 = n - 2 by ring] at h2
        exact hp _ h2
  have hll : (dofs ++ ex).length = ((a ++ (rads ++ keys.map f)).map (denoteVec ℝ c.tdim)).length := by
    rw [List.length_append, List.length_map, hlen, ← (mapM_forall hdofs).length_eq, boxMoments_length, hexl, hxl, hyl, ← hcount,
      if_neg (by omega), Int.toNat_natCast]
  obtain ⟨h1, fs, h2, h3, h4⟩ := ciarlet_basis hll hi fun v hv => hu v ((hS v).1 hv)
  refine ⟨_, dofs ++ ex, fs, ?_, h2, ?_, ?_, fun v => by rw [h3, hS], hu, htr⟩
  · have e1 : ((n + 1 : ℕ) : ℤ) - 1 = n := by push_cast; ring
    have e3 : ((n + 1 : ℕ) : ℤ) - 3 = n - 2 := by push_cast; ring
    unfold tsdiv momentElementWith
    rw [e1, e3, hset, hex, hms', Option.bind_some, Option.bind_some, hdofs, Option.bind_some, Option.bind_some, h1]
  · rw [hll, List.length_map, hlen]
  · rw [h4, List.length_map, hlen]

end

end Verif.Families
