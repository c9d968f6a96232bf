import Verif.FiniteElement.PropsBasis
import Mathlib.Tactic.Ring
/-!
# Tabulation (C50)
-/

set_option linter.unusedSectionVars false

namespace Verif.FiniteElement

variable {K V P : Type} [Field K] [AddCommGroup V] [Module K V]

theorem foldl_min_const (m : ℕ) (rs : List (List K)) (h : ∀ r ∈ rs, r.length = m) :
    rs.foldl (fun m l => min m l.length) m = m := by
  induction rs with
  | nil => rfl
  | cons r rs ih =>
    rw [List.foldl_cons, h r (by simp), min_self]
    exact ih fun r hr => h r (by simp [hr])

/-- Entry `(c, b)` of the columns is entry `(b, c)` of the rows. -/
theorem zipStar_getElem? (m : ℕ) (rows : List (List K)) (h : ∀ r ∈ rows, r.length = m)
    (hne : rows ≠ []) (c : ℕ) (hc : c < m) :
    ∃ col, (zipStar rows)[c]? = some col ∧ col.length = rows.length ∧
      ∀ b : ℕ, col[b]? = rows[b]?.bind (fun r : List K => r[c]?) := by
  have hz : zipStar rows = (List.range m).map fun c => rows.filterMap (·[c]?) := by
    cases rows with
    | nil => exact absurd rfl hne
    | cons r rs =>
      rw [zipStar, h r (by simp), foldl_min_const m rs fun r hr => h r (by simp [hr])]
  refine ⟨rows.filterMap (·[c]?), ?_, ?_⟩
  · rw [hz, List.getElem?_map, List.getElem?_range hc]; rfl
  · clear hz hne
    induction rows with
    | nil => simp
    | cons r rs ih =>
      have hr : r.length = m := h r (by simp)
      obtain ⟨hl, hb⟩ := ih fun r hr => h r (by simp [hr])
      have hs : r[c]? = some (r[c]'(by omega)) := List.getElem?_eq_getElem (by omega)
      rw [List.filterMap_cons_some (f := fun r : List K => r[c]?) hs]
      refine ⟨by simp [hl], fun b => ?_⟩
      cases b with
      | zero => simp [hs]
      | succ b => simpa using hb b

theorem zipStar_length (m : ℕ) (rows : List (List K)) (h : ∀ r ∈ rows, r.length = m)
    (hne : rows ≠ []) : (zipStar rows).length = m := by
  cases rows with
  | nil => exact absurd rfl hne
  | cons r rs =>
    rw [zipStar, h r (by simp), foldl_min_const m rs fun r hr => h r (by simp [hr])]
    simp

/-- Entry `i * m + j` of the concatenation of rows of length `m` is entry `j` of row `i`. -/
theorem flatten_getElem? (m : ℕ) (rows : List (List K)) (h : ∀ r ∈ rows, r.length = m) (i j : ℕ)
    (hj : j < m) : rows.flatten[i * m + j]? = rows[i]?.bind (·[j]?) := by
  induction rows generalizing i with
  | nil => simp
  | cons r rs ih =>
    have hr : r.length = m := h r (by simp)
    rw [List.flatten_cons]
    cases i with
    | zero => rw [Nat.zero_mul, Nat.zero_add, List.getElem?_append_left (by omega)]; simp
    | succ i =>
      have hle : r.length ≤ (i + 1) * m + j := by rw [hr, Nat.succ_mul]; omega
      have hsub : (i + 1) * m + j - r.length = i * m + j := by rw [hr, Nat.succ_mul]; omega
      rw [List.getElem?_append_right hle, hsub, ih fun r hr => h r (by simp [hr])]
      simp

theorem mapM_some_iff {α β : Type} (f : α → Option β) (l : List α) (r : List β) :
    l.mapM f = some r ↔ r.length = l.length ∧ ∀ i : ℕ, l[i]?.bind f = r[i]? := by
  induction l generalizing r with
  | nil =>
    rw [List.mapM_nil]
    constructor
    · intro h; injection h with h; subst h; simp
    · rintro ⟨h, -⟩
      have : r = [] := List.length_eq_zero_iff.1 h
      subst this; rfl
  | cons a t ih =>
    rw [List.mapM_cons]
    constructor
    · intro h
      cases hfa : f a with
      | none => rw [hfa] at h; cases h
      | some b =>
        cases hm : t.mapM f with
        | none => rw [hfa, hm] at h; cases h
        | some bs =>
          rw [hfa, hm] at h
          injection h with h
          subst h
          obtain ⟨h1, h2⟩ := (ih bs).1 hm
          refine ⟨by simp [h1], fun i => ?_⟩
          cases i with
          | zero => simpa using hfa
          | succ i => simpa using h2 i
    · rintro ⟨hl, hi⟩
      cases r with
      | nil => simp at hl
      | cons b bs =>
        have h0 : f a = some b := by simpa using hi 0
        have h1 : t.mapM f = some bs := (ih bs).2 ⟨by simpa using hl, fun i => by simpa using hi (i + 1)⟩
        rw [h0, h1]; rfl

variable (value : V → P → List K) (dim : ℕ) (fs : List V) (points : List P)

theorem row_lengths (hv : ∀ f ∈ fs, ∀ p ∈ points, (value f p).length = dim) (p : P)
    (hp : p ∈ points) : ∀ r ∈ fs.map (fun f => value f p), r.length = dim := by
  intro r hr
  obtain ⟨f, hf, rfl⟩ := List.mem_map.1 hr
  exact hv f hf p hp

/-- **C50** `"xyzxyz"`: entry `b * dim + c` of the row of a point is component `c` of function
`b` there. -/
theorem tabulate_xyzxyz (hd : dim ≠ 1) (hv : ∀ f ∈ fs, ∀ p ∈ points, (value f p).length = dim)
    (out : List (Row K)) (h : tabulate value dim "xyzxyz" fs points = some out) :
    out.length = points.length ∧ ∀ (i : ℕ) (p : P), points[i]? = some p →
      ∃ row, out[i]? = some (.flat row) ∧ row.length = fs.length * dim ∧
        ∀ (b c : ℕ) (f : V), c < dim → fs[b]? = some f → row[b * dim + c]? = (value f p)[c]? := by
  obtain ⟨hl, hi⟩ := (mapM_some_iff _ _ _).1 h
  refine ⟨hl, fun i p hp => ⟨(fs.map fun f => value f p).flatten, ?_, ?_, ?_⟩⟩
  · rw [← hi i, hp]
    simp [tabulateRow, hd]
  · rw [List.length_flatten, List.map_map]
    rw [List.map_congr_left (f := List.length ∘ fun f => value f p) (g := fun _ => dim)
      (fun f hf => hv f hf p (List.mem_of_getElem? hp))]
    simp
  · intro b c f hc hb
    rw [flatten_getElem? dim _ (row_lengths value dim fs points hv p (List.mem_of_getElem? hp)) b c
      hc, List.getElem?_map, hb]
    rfl

/-- **C50** `"xxyyzz"`: entry `c * n + b` of the row of a point is component `c` of function `b`
there, for `n` functions. -/
theorem tabulate_xxyyzz (hd : dim ≠ 1) (hv : ∀ f ∈ fs, ∀ p ∈ points, (value f p).length = dim)
    (out : List (Row K)) (h : tabulate value dim "xxyyzz" fs points = some out) :
    out.length = points.length ∧ ∀ (i : ℕ) (p : P), points[i]? = some p →
      ∃ row, out[i]? = some (.flat row) ∧ row.length = dim * fs.length ∧
        ∀ (b c : ℕ) (f : V), c < dim → fs[b]? = some f →
          row[c * fs.length + b]? = (value f p)[c]? := by
  obtain ⟨hl, hi⟩ := (mapM_some_iff _ _ _).1 h
  refine ⟨hl, fun i p hp => ⟨(zipStar (fs.map fun f => value f p)).flatten, ?_, ?_⟩⟩
  · rw [← hi i, hp]
    simp [tabulateRow, hd]
  · have hr := row_lengths value dim fs points hv p (List.mem_of_getElem? hp)
    by_cases hne : fs = []
    · subst hne; simp [zipStar]
    have hne' : fs.map (fun f => value f p) ≠ [] := by simpa using hne
    have hcols : ∀ r ∈ zipStar (fs.map fun f => value f p), r.length = fs.length := by
      intro r hrm
      obtain ⟨c, hc', rfl⟩ := List.mem_iff_getElem.1 hrm
      have hc := hc'
      rw [zipStar_length dim _ hr hne'] at hc
      obtain ⟨col, h1, h2, -⟩ := zipStar_getElem? dim _ hr hne' c hc
      rw [List.getElem?_eq_getElem hc'] at h1
      injection h1 with h1
      rw [h1, h2, List.length_map]
    refine ⟨?_, ?_⟩
    · rw [List.length_flatten, List.map_congr_left (g := fun _ => fs.length) hcols]
      simp [zipStar_length dim _ hr hne']
    · intro b c f hc hb
      have hbl := (List.getElem?_eq_some_iff.1 hb).1
      rw [flatten_getElem? fs.length _ hcols c b hbl]
      obtain ⟨col, h1, -, h3⟩ := zipStar_getElem? dim _ hr hne' c hc
      rw [h1, Option.bind_some, h3 b, List.getElem?_map, hb]
      rfl

/-- **C50** `"xx,yy,zz"`: entry `c` of the row of a point is a tuple whose entry `b` is component
`c` of function `b` there. -/
theorem tabulate_xx_yy_zz (hd : dim ≠ 1) (hne : fs ≠ [])
    (hv : ∀ f ∈ fs, ∀ p ∈ points, (value f p).length = dim)
    (out : List (Row K)) (h : tabulate value dim "xx,yy,zz" fs points = some out) :
    out.length = points.length ∧ ∀ (i : ℕ) (p : P), points[i]? = some p →
      ∃ row, out[i]? = some (.nested row) ∧ row.length = dim ∧ ∀ c < dim, ∃ col,
        row[c]? = some col ∧ col.length = fs.length ∧
          ∀ (b : ℕ) (f : V), fs[b]? = some f → col[b]? = (value f p)[c]? := by
  obtain ⟨hl, hi⟩ := (mapM_some_iff _ _ _).1 h
  refine ⟨hl, fun i p hp => ⟨zipStar (fs.map fun f => value f p), ?_, ?_⟩⟩
  · rw [← hi i, hp]
    simp [tabulateRow, hd]
  · have hr := row_lengths value dim fs points hv p (List.mem_of_getElem? hp)
    have hne' : fs.map (fun f => value f p) ≠ [] := by simpa using hne
    refine ⟨zipStar_length dim _ hr hne', fun c hc => ?_⟩
    obtain ⟨col, h1, h2, h3⟩ := zipStar_getElem? dim _ hr hne' c hc
    refine ⟨col, h1, by simpa using h2, fun b f hb => ?_⟩
    rw [h3 b, List.getElem?_map, hb]
    rfl

/-- **C50** `"xyz,xyz"`: entry `b` of the row of a point lists the components of function `b`
there. -/
theorem tabulate_xyz_xyz (hd : dim ≠ 1) (out : List (Row K))
    (h : tabulate value dim "xyz,xyz" fs points = some out) :
    out.length = points.length ∧ ∀ (i : ℕ) (p : P), points[i]? = some p →
      ∃ row, out[i]? = some (.nested row) ∧ row.length = fs.length ∧
        ∀ (b : ℕ) (f : V), fs[b]? = some f → row[b]? = some (value f p) := by
  obtain ⟨hl, hi⟩ := (mapM_some_iff _ _ _).1 h
  refine ⟨hl, fun i p hp => ⟨fs.map fun f => value f p, ?_, by simp, fun b f hb => by simp [hb]⟩⟩
  rw [← hi i, hp]
  simp [tabulateRow, hd]

/-- **C50** Scalar elements: entry `b` of the row of a point is the value of function `b` there,
whatever the order asked for. -/
theorem tabulate_scalar (order : String)
    (hv : ∀ f ∈ fs, ∀ p ∈ points, (value f p).length = 1) (out : List (Row K))
    (h : tabulate value 1 order fs points = some out) :
    out.length = points.length ∧ ∀ (i : ℕ) (p : P), points[i]? = some p →
      ∃ row, out[i]? = some (.flat row) ∧ row.length = fs.length ∧
        ∀ (b : ℕ) (f : V), fs[b]? = some f → row[b]? = (value f p)[0]? := by
  obtain ⟨hl, hi⟩ := (mapM_some_iff _ _ _).1 h
  refine ⟨hl, fun i p hp => ⟨(fs.map fun f => value f p).flatten, ?_, ?_, ?_⟩⟩
  · rw [← hi i, hp]
    simp [tabulateRow]
  · rw [List.length_flatten, List.map_map]
    rw [List.map_congr_left (f := List.length ∘ fun f => value f p) (g := fun _ => 1)
      (fun f hf => hv f hf p (List.mem_of_getElem? hp))]
    simp
  · intro b f hb
    have := flatten_getElem? 1 _
      (row_lengths value 1 fs points hv p (List.mem_of_getElem? hp)) b 0 (by omega)
    rw [Nat.mul_one, Nat.add_zero] at this
    rw [this, List.getElem?_map, hb]
    rfl

/-- **C50** Tabulation of a vector-valued element raises exactly for unknown orders (if there is a
point), and never raises for scalar elements. -/
theorem tabulate_isSome_iff (order : String) :
    (tabulate value dim order fs points).isSome ↔
      points = [] ∨ dim = 1 ∨ order ∈ ["xyz,xyz", "xxyyzz", "xx,yy,zz", "xyzxyz"] := by
  cases points with
  | nil => simp [tabulate]
  | cons p ps =>
    have hrow : ∀ r : List (List K), (tabulateRow dim order r).isSome ↔
        dim = 1 ∨ order ∈ ["xyz,xyz", "xxyyzz", "xx,yy,zz", "xyzxyz"] := by
      intro r
      unfold tabulateRow
      split_ifs <;> simp_all
    constructor
    · intro h
      obtain ⟨out, ho⟩ := Option.isSome_iff_exists.1 h
      obtain ⟨hl, hi⟩ := (mapM_some_iff _ _ _).1 ho
      have := hi 0
      simp only [List.getElem?_cons_zero, Option.bind_some] at this
      right
      rw [← hrow, this]
      cases out with
      | nil => simp at hl
      | cons o os => simp
    · intro h
      have h : dim = 1 ∨ order ∈ ["xyz,xyz", "xxyyzz", "xx,yy,zz", "xyzxyz"] := by simpa using h
      have hs : ∀ q, tabulateRow dim order (fs.map fun f => value f q) =
          some (((tabulateRow dim order (fs.map fun f => value f q))).getD (.flat [])) := by
        intro q
        obtain ⟨x, hx⟩ := Option.isSome_iff_exists.1 ((hrow (fs.map fun f => value f q)).2 h)
        rw [hx]; rfl
      unfold tabulate
      rw [mapM_some_of _ _ _ fun q _ => hs q]
      rfl

/-- Two vector functions tabulated at one point, in each of the orders. -/
example : let v : ℚ → ℚ → List ℚ := fun f p => [f * p, f + p]
    tabulateRow 2 "xyzxyz" ([1, 2].map fun f => v f 5) = some (.flat [5, 6, 10, 7]) ∧
    tabulateRow 2 "xxyyzz" ([1, 2].map fun f => v f 5) = some (.flat [5, 10, 6, 7]) ∧
    tabulateRow 2 "xx,yy,zz" ([1, 2].map fun f => v f 5) = some (.nested [[5, 10], [6, 7]]) := by
  refine ⟨?_, ?_, ?_⟩ <;> simp [tabulateRow, zipStar, List.range_succ] <;> norm_num

end Verif.FiniteElement
