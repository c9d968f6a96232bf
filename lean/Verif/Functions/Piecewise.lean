import Verif.Functions.PropsSubs
import Verif.Geometry.Props
import Mathlib.Data.Real.Basic
import Mathlib.Data.List.Zip

/-!
# Piecewise functions (C46, C79)

symfem/piecewise_functions.py
-/

namespace Verif.Functions

open Verif.Geometry

/-! ### Model -/

/-- The exceptions that can be seen. -/
inductive PErr where
  | valueError
  | notImplemented
  | assertion
  deriving DecidableEq

/-- A `PiecewiseFunction`: the dimension and the pieces, in order (symfem/piecewise_functions.py:37-66). -/
structure Piecewise (K α : Type) where
  tdim : ℕ
  pieces : List (List (Point K) × α)

variable {K α β γ : Type} [Field K] [LinearOrder K]

/-- The test of one cell in `get_piece`; `none`: `ValueError` (symfem/piecewise_functions.py:138-153). -/
def inPiece (tdim : ℕ) (point : Point K) (cell : List (Point K)) : Option Bool :=
  if tdim = 1 then some (pointInInterval (point.take 1) cell)
  else if tdim = 2 then
    if cell.length = 3 then some (pointInTriangle (point.take 2) cell)
    else if cell.length = 4 then some (pointInQuadrilateral (point.take 2) cell)
    else none
  else
    if cell.length = 4 then some (pointInTetrahedron point cell) else none

/-- The loop of `get_piece`. -/
def getPieceLoop (tdim : ℕ) (point : Point K) : List (List (Point K) × α) → Except PErr α
  | [] => .error .notImplemented
  | (cell, value) :: rest =>
    match inPiece tdim point cell with
    | none => .error .valueError
    | some true => .ok value
    | some false => getPieceLoop tdim point rest

/-- `PiecewiseFunction.get_piece` (symfem/piecewise_functions.py:129-155). -/
def Piecewise.getPiece (f : Piecewise K α) (point : Point K) : Except PErr α :=
  if f.tdim = 1 ∨ f.tdim = 2 ∨ f.tdim = 3 then getPieceLoop f.tdim point f.pieces
  else .error .notImplemented

/-- A method applied to each piece: `__neg__`, `diff`, `grad`, `f + 1`, …
(symfem/piecewise_functions.py:157-161, 196, 206, …). -/
def Piecewise.map (g : α → β) (f : Piecewise K α) : Piecewise K β :=
  { tdim := f.tdim, pieces := f.pieces.map fun p => (p.1, g p.2) }

/-- `__add__`, `__sub__`, `__mul__`, … with a piecewise function
(symfem/piecewise_functions.py:188-195, 208-215, …): the pieces are paired by `zip`, the cells of a pair
must be the same, and there must be a piece. -/
def Piecewise.zipWith (g : α → β → γ) (f : Piecewise K α) (h : Piecewise K β) :
    Except PErr (Piecewise K γ) :=
  if ∀ p ∈ f.pieces.zip h.pieces, p.1.1 = p.2.1 then
    if f.pieces.zip h.pieces = [] then .error .assertion
    else .ok { tdim := f.tdim, pieces := (f.pieces.zip h.pieces).map fun p => (p.1.1, g p.1.2 p.2.2) }
  else .error .assertion

/-- `PiecewiseFunction.__eq__` with a piecewise function (symfem/piecewise_functions.py:163-174); `eq` is
`!=` of the pieces, negated. -/
def eqLoop (eq : α → α → Bool) : List ((List (Point K) × α) × (List (Point K) × α)) → Except PErr Bool
  | [] => .ok true
  | (a, b) :: rest =>
    if a.1 = b.1 then
      if eq a.2 b.2 then eqLoop eq rest else .ok false
    else .error .assertion

/-- `PiecewiseFunction.__eq__` -/
def Piecewise.eq (eq : α → α → Bool) (f h : Piecewise K α) : Except PErr Bool :=
  if f.tdim ≠ h.tdim then .ok false else eqLoop eq (f.pieces.zip h.pieces)

/-- `PiecewiseFunction.subs` with as many constant values as dimensions
(symfem/piecewise_functions.py:319-327). -/
noncomputable def Piecewise.subsConst (f : Piecewise ℝ Expr) (vars : List String) (values : List ℝ) :
    Except PErr Expr :=
  (f.getPiece values).map fun g => subsList g vars (values.map .num)

/-! ### Spec -/

/-- The points, as a cell of the code. -/
def cellOf {d n : ℕ} (v : Fin n → Fin d → K) : List (Point K) := List.ofFn fun i => tup (v i)

/-- The corners of a cell of the dimension that `PiecewiseFunction` supports: intervals, triangles and
convex, positively oriented quadrilaterals, tetrahedra; not degenerate. -/
inductive Proper : (d : ℕ) → {n : ℕ} → (Fin n → Fin d → K) → Prop
  | interval (a b : Fin 1 → K) (h : a 0 ≠ b 0) : Proper 1 ![a, b]
  | triangle (a b c : Fin 2 → K) (h : area2 a b c ≠ 0) : Proper 2 ![a, b, c]
  | quadrilateral (a b c d : Fin 2 → K) (h : ConvexPositive a b c d) : Proper 2 ![a, b, c, d]
  | tetrahedron (a b c d : Fin 3 → K) (h : volume6 a b c d ≠ 0) : Proper 3 ![a, b, c, d]

/-- A cell with its number of corners. -/
structure SubCell (K : Type) (d : ℕ) where
  n : ℕ
  v : Fin n → Fin d → K

/-- The piecewise function with these cells and functions. -/
def piecewise {d : ℕ} (l : List (SubCell K d × α)) : Piecewise K α :=
  { tdim := d, pieces := l.map fun p => (cellOf p.1.v, p.2) }

/-! ### Evaluation -/

section
variable [IsStrictOrderedRing K]

theorem inPiece_iff {d n : ℕ} {v : Fin n → Fin d → K} (h : Proper d v) (p : Fin d → K) :
    ∃ b, inPiece d (tup p) (cellOf v) = some b ∧ (b = true ↔ InHull p v) := by
  cases h with
  | interval a b h =>
    refine ⟨_, by rw [inPiece, if_pos rfl], ?_⟩
    exact pointInInterval_iff p a b h
  | triangle a b c h =>
    refine ⟨pointInTriangle (tup p) [tup a, tup b, tup c], ?_, pointInTriangle_iff p a b c h⟩
    simp [inPiece, cellOf, tup]
  | quadrilateral a b c d h =>
    refine ⟨pointInQuadrilateral (tup p) [tup a, tup b, tup c, tup d], ?_,
      pointInQuadrilateral_iff p a b c d h⟩
    simp [inPiece, cellOf, tup]
  | tetrahedron a b c d h =>
    refine ⟨pointInTetrahedron (tup p) [tup a, tup b, tup c, tup d], ?_,
      pointInTetrahedron_iff p a b c d h⟩
    simp [inPiece, cellOf, tup]

omit [IsStrictOrderedRing K] in
theorem Proper.dim {d n : ℕ} {v : Fin n → Fin d → K} (h : Proper d v) : d = 1 ∨ d = 2 ∨ d = 3 := by
  cases h <;> simp

/-- **C46** `get_piece` returns the function of the first cell that contains the point. -/
theorem getPiece_ok {d : ℕ} (l : List (SubCell K d × α)) (hl : ∀ s ∈ l, Proper d s.1.v) (p : Fin d → K)
    (f : α) : (piecewise l).getPiece (tup p) = .ok f ↔
      ∃ pre s post, l = pre ++ s :: post ∧ s.2 = f ∧ InHull p s.1.v ∧ ∀ s' ∈ pre, ¬ InHull p s'.1.v := by
  by_cases hd : d = 1 ∨ d = 2 ∨ d = 3
  · have e : (piecewise l).getPiece (tup p) = getPieceLoop d (tup p) (piecewise l).pieces := if_pos hd
    rw [e]
    induction l with
    | nil => simp [piecewise, getPieceLoop]
    | cons s l ih =>
      obtain ⟨b, hb, hiff⟩ := inPiece_iff (hl s (by simp)) p
      have e2 : (piecewise (s :: l)).pieces = (cellOf s.1.v, s.2) :: (piecewise l).pieces := rfl
      rw [e2, getPieceLoop, hb]
      cases b with
      | true =>
        simp only [Except.ok.injEq]
        constructor
        · rintro rfl
          exact ⟨[], s, l, rfl, rfl, hiff.1 rfl, by simp⟩
        · rintro ⟨pre, s', post, he, rfl, hin, hpre⟩
          cases pre with
          | nil => simp at he; rw [he.1]
          | cons a pre =>
            simp at he
            exact absurd (hiff.1 rfl) (by rw [he.1]; exact hpre a (by simp))
      | false =>
        simp only
        have hnot : ¬ InHull p s.1.v := fun h => by simpa using hiff.2 h
        have := ih (fun s hs => hl s (by simp [hs])) (if_pos hd)
        refine this.trans ?_
        constructor
        · rintro ⟨pre, s', post, rfl, rfl, hin, hpre⟩
          exact ⟨s :: pre, s', post, rfl, rfl, hin, by
            intro a ha
            rcases List.mem_cons.1 ha with rfl | ha
            · exact hnot
            · exact hpre a ha⟩
        · rintro ⟨pre, s', post, he, rfl, hin, hpre⟩
          cases pre with
          | nil => simp at he; exact absurd hin (he.1 ▸ hnot)
          | cons a pre =>
            simp at he
            exact ⟨pre, s', post, he.2, rfl, hin, fun x hx => hpre x (by simp [hx])⟩
  · cases l with
    | nil => simp [piecewise, Piecewise.getPiece, hd]
    | cons s l => exact absurd (hl s (by simp)).dim hd

/-- **C46** Outside all of the cells there is an exception. -/
theorem getPiece_error {d : ℕ} (l : List (SubCell K d × α)) (hl : ∀ s ∈ l, Proper d s.1.v) (p : Fin d → K) :
    (piecewise l).getPiece (tup p) = .error .notImplemented ↔ ∀ s ∈ l, ¬ InHull p s.1.v := by
  by_cases hd : d = 1 ∨ d = 2 ∨ d = 3
  · have e : (piecewise l).getPiece (tup p) = getPieceLoop d (tup p) (piecewise l).pieces := if_pos hd
    rw [e]
    induction l with
    | nil => simp [piecewise, getPieceLoop]
    | cons s l ih =>
      obtain ⟨b, hb, hiff⟩ := inPiece_iff (hl s (by simp)) p
      have e2 : (piecewise (s :: l)).pieces = (cellOf s.1.v, s.2) :: (piecewise l).pieces := rfl
      rw [e2, getPieceLoop, hb]
      cases b with
      | true =>
        simp only [reduceCtorEq, false_iff, not_forall]
        exact ⟨s, by simp, by simpa using hiff⟩
      | false =>
        simp only
        have hnot : ¬ InHull p s.1.v := fun h => by simpa using hiff.2 h
        refine (ih (fun s hs => hl s (by simp [hs])) (if_pos hd)).trans ?_
        simp [hnot]
  · cases l with
    | nil => simp [piecewise, Piecewise.getPiece, hd]
    | cons s l => exact absurd (hl s (by simp)).dim hd

end

/-- **C46** With cells of another number of corners there is a `ValueError`. -/
theorem getPiece_unsupported (cell : List (Point K)) (value : α) (rest : List (List (Point K) × α))
    (point : Point K) (h3 : cell.length ≠ 3) (h4 : cell.length ≠ 4) :
    (Piecewise.mk 2 ((cell, value) :: rest)).getPiece point = .error .valueError := by
  simp [Piecewise.getPiece, getPieceLoop, inPiece, h3, h4]

/-! ### Arithmetic -/

theorem getPieceLoop_map (tdim : ℕ) (point : Point K) (g : α → β) (l : List (List (Point K) × α)) :
    getPieceLoop tdim point (l.map fun p => (p.1, g p.2)) = (getPieceLoop tdim point l).map g := by
  induction l with
  | nil => rfl
  | cons a l ih =>
    rw [List.map_cons, getPieceLoop, getPieceLoop]
    cases inPiece tdim point a.1 with
    | none => rfl
    | some b => cases b with
      | true => rfl
      | false => exact ih

/-- **C46** Methods that are applied to each piece are applied to the piece at the point. -/
theorem getPiece_map (g : α → β) (f : Piecewise K α) (point : Point K) :
    (f.map g).getPiece point = (f.getPiece point).map g := by
  unfold Piecewise.getPiece Piecewise.map
  simp only
  split_ifs
  · exact getPieceLoop_map _ _ _ _
  · rfl

theorem getPieceLoop_zip (tdim : ℕ) (point : Point K) (g : α → β → γ) (l : List (List (Point K) × α))
    (l' : List (List (Point K) × β)) (h : l.map Prod.fst = l'.map Prod.fst) :
    getPieceLoop tdim point ((l.zip l').map fun p => (p.1.1, g p.1.2 p.2.2)) =
      (getPieceLoop tdim point l).bind fun a => (getPieceLoop tdim point l').map fun b => g a b := by
  induction l generalizing l' with
  | nil =>
    cases l' with
    | nil => rfl
    | cons _ _ => simp at h
  | cons a l ih =>
    cases l' with
    | nil => simp at h
    | cons b l' =>
      obtain ⟨c, a⟩ := a
      obtain ⟨c', b⟩ := b
      simp only [List.map_cons, List.cons.injEq] at h
      obtain ⟨rfl, h⟩ := h
      simp only [List.zip_cons_cons, List.map_cons, getPieceLoop]
      cases inPiece tdim point c with
      | none => rfl
      | some x => cases x with
        | true => rfl
        | false => exact ih l' h

/-- **C46** Sums, differences, products, … of functions on the same cells exist, and are those of the
pieces at the point. -/
theorem getPiece_zipWith (g : α → β → γ) (f : Piecewise K α) (h : Piecewise K β) (hd : f.tdim = h.tdim)
    (hp : f.pieces ≠ []) (hs : f.pieces.map Prod.fst = h.pieces.map Prod.fst) :
    ∃ r, f.zipWith g h = .ok r ∧ r.pieces.map Prod.fst = f.pieces.map Prod.fst ∧
      ∀ point, r.getPiece point = (f.getPiece point).bind fun a => (h.getPiece point).map fun b => g a b := by
  have hlen : f.pieces.length = h.pieces.length := by
    have := congrArg List.length hs
    simpa using this
  have hsame : ∀ p ∈ f.pieces.zip h.pieces, p.1.1 = p.2.1 := by
    intro p hp
    obtain ⟨i, hi, rfl⟩ := List.getElem_of_mem hp
    have := congrArg (fun l : List (List (Point K)) => l[i]?) hs
    have h1 : i < f.pieces.length := by simp at hi; omega
    have h2 : i < h.pieces.length := by omega
    simpa [h1, h2] using this
  have hne : f.pieces.zip h.pieces ≠ [] := by
    intro he
    have := congrArg List.length he
    simp at this
    rcases this with h0 | h0
    · exact hp h0
    · exact hp (List.length_eq_zero_iff.1 (by rw [hlen, h0]; rfl))
  refine ⟨_, by rw [Piecewise.zipWith, if_pos hsame, if_neg hne], ?_, fun point => ?_⟩
  · simp only [List.map_map]
    have : (Prod.fst ∘ fun p : (List (Point K) × α) × (List (Point K) × β) => (p.1.1, g p.1.2 p.2.2)) =
        Prod.fst ∘ Prod.fst := rfl
    rw [this, ← List.map_map, List.map_fst_zip (by omega)]
  · unfold Piecewise.getPiece
    simp only
    rw [← hd]
    split_ifs
    · exact getPieceLoop_zip _ _ _ _ _ hs
    · rfl

omit [Field K] in
/-- **C46** Functions on different cells are rejected. -/
theorem zipWith_mismatch (g : α → β → γ) (f : Piecewise K α) (h : Piecewise K β) (c c' : List (Point K))
    (a : α) (b : β) (hc : c ≠ c') (hm : ((c, a), (c', b)) ∈ f.pieces.zip h.pieces) :
    f.zipWith g h = .error .assertion := by
  rw [Piecewise.zipWith, if_neg]
  intro hall
  exact hc (hall _ hm)

omit [Field K] in
/-- **C46** is false when one of the functions has more pieces: the others are lost, with no exception. -/
theorem zipWith_truncates (g : α → β → γ) (tdim : ℕ) (pieces : List (List (Point K) × α))
    (pieces' extra : List (List (Point K) × β))
    (hs : pieces.map Prod.fst = pieces'.map Prod.fst) :
    (Piecewise.mk tdim pieces).zipWith g (Piecewise.mk tdim (pieces' ++ extra)) =
      (Piecewise.mk tdim pieces).zipWith g (Piecewise.mk tdim pieces') := by
  have hlen : pieces.length = pieces'.length := by
    have := congrArg List.length hs
    simpa using this
  have : pieces.zip (pieces' ++ extra) = pieces.zip pieces' := by
    have := List.zip_append (l₁ := pieces) (r₁ := []) (l₂ := pieces') (r₂ := extra) hlen
    simpa using this
  unfold Piecewise.zipWith
  simp only [this]

/-! ### Equality -/

omit [Field K] in
theorem eqLoop_true (eq : α → α → Bool) (l : List ((List (Point K) × α) × (List (Point K) × α))) :
    eqLoop eq l = .ok true ↔ ∀ p ∈ l, p.1.1 = p.2.1 ∧ eq p.1.2 p.2.2 = true := by
  induction l with
  | nil => simp [eqLoop]
  | cons a l ih =>
    obtain ⟨a, b⟩ := a
    rw [eqLoop]
    split_ifs with h1 h2
    · simp [ih, h1, h2]
    · simp [h2]
    · simp [h1]

/-- **C79** With as many pieces, functions that compare equal have equal pieces at every point. -/
theorem eq_sound_partial (eq : α → α → Bool) (f h : Piecewise K α) (hl : f.pieces.length = h.pieces.length)
    (he : f.eq eq h = .ok true) (point : Point K) :
    (∃ a b, f.getPiece point = .ok a ∧ h.getPiece point = .ok b ∧ eq a b = true) ∨
      ∃ e, f.getPiece point = .error e ∧ h.getPiece point = .error e := by
  unfold Piecewise.eq at he
  split_ifs at he with hd
  · simp at he
  · push Not at hd
    rw [eqLoop_true] at he
    unfold Piecewise.getPiece
    rw [← hd]
    split_ifs
    · generalize f.pieces = l at *
      generalize h.pieces = l' at *
      induction l generalizing l' with
      | nil =>
        cases l' with
        | nil => exact Or.inr ⟨_, rfl, rfl⟩
        | cons _ _ => simp at hl
      | cons a l ih =>
        cases l' with
        | nil => simp at hl
        | cons b l' =>
          obtain ⟨c, a⟩ := a
          obtain ⟨c', b⟩ := b
          have h0 := he ((c, a), (c', b)) (by simp)
          simp only at h0
          obtain ⟨rfl, hab⟩ := h0
          simp only [getPieceLoop]
          cases inPiece f.tdim point c with
          | none => exact Or.inr ⟨_, rfl, rfl⟩
          | some x => cases x with
            | true => exact Or.inl ⟨a, b, rfl, rfl, hab⟩
            | false => exact ih l' (by simpa using hl) fun p hp => he p (by simp [hp])
    · exact Or.inr ⟨_, rfl, rfl⟩

omit [Field K] in
/-- **C79** is false: adding pieces at the end gives a function that compares equal. -/
theorem eq_ignores_extra (eq : α → α → Bool) (heq : ∀ a, eq a a = true) (tdim : ℕ)
    (pieces extra : List (List (Point K) × α)) :
    (Piecewise.mk tdim pieces).eq eq (Piecewise.mk tdim (pieces ++ extra)) = .ok true := by
  unfold Piecewise.eq
  rw [if_neg (by simp), eqLoop_true]
  have : pieces.zip (pieces ++ extra) = pieces.zip pieces := by
    have := List.zip_append (l₁ := pieces) (r₁ := []) (l₂ := pieces) (r₂ := extra) rfl
    simpa using this
  simp only [this]
  intro p hp
  have : ∀ l : List (List (Point K) × α), ∀ p ∈ l.zip l, p.1 = p.2 := by
    intro l
    induction l with
    | nil => simp
    | cons a l ih =>
      intro p hp
      rw [List.zip_cons_cons, List.mem_cons] at hp
      rcases hp with rfl | hp
      · rfl
      · exact ih p hp
  rw [this _ p hp]
  exact ⟨rfl, heq _⟩

/-! ### Substitution of a point -/

/-- **C46** Substituting a point gives the value of the piece at the point. -/
theorem subsConst_eval {d : ℕ} (l : List (SubCell ℝ d × Expr)) (hl : ∀ s ∈ l, Proper d s.1.v)
    (p : Fin d → ℝ) (s : SubCell ℝ d × Expr) (pre post : List (SubCell ℝ d × Expr))
    (he : l = pre ++ s :: post) (hin : InHull p s.1.v) (hpre : ∀ s' ∈ pre, ¬ InHull p s'.1.v)
    (hdummy : ∀ i < d, ¬ s.2.Has (dummySym i)) (env : String → ℝ) :
    ∃ e, (piecewise l).subsConst x (tup p) = .ok e ∧
      e.eval env = s.2.eval (replaced env x ((tup p).map Expr.num)) := by
  have h := (getPiece_ok l hl p s.2).2 ⟨pre, s, post, he, rfl, hin, hpre⟩
  refine ⟨subsList s.2 x ((tup p).map Expr.num), ?_, ?_⟩
  · unfold Piecewise.subsConst
    rw [h]
    rfl
  · have hlen : ((tup p).map Expr.num).length = d := by simp [tup]
    refine subsList_eval _ _ _ _ (fun i hi => hdummy i (hlen ▸ hi)) ?_ ?_
    · intro i _ hmem
      have hl : (dummySym i).toList.length ≥ 6 := by simp [dummySym]
      simp only [x, List.mem_cons, List.not_mem_nil, or_false] at hmem
      rcases hmem with h | h | h <;> rw [h] at hl <;> simp at hl
    · intro i _ v hv
      obtain ⟨a, -, rfl⟩ := List.mem_map.1 hv
      simp [Expr.Has]

/-! ### Concrete cases -/

/-- Two triangles that share an edge. -/
def twoTriangles : List (SubCell ℚ 2 × ℕ) :=
  [(⟨3, ![![0, 0], ![1, 0], ![0, 1]]⟩, 10), (⟨3, ![![1, 0], ![0, 1], ![1, 1]]⟩, 20)]

example : ∀ s ∈ twoTriangles, Proper 2 s.1.v := by
  intro s hs
  simp only [twoTriangles, List.mem_cons, List.not_mem_nil, or_false] at hs
  rcases hs with rfl | rfl
  · exact .triangle _ _ _ (by norm_num [area2])
  · exact .triangle _ _ _ (by norm_num [area2])

example : (match (piecewise twoTriangles).getPiece [3/4, 3/4] with | .ok v => v | .error _ => 0) = 20 ∧
    (match (piecewise twoTriangles).getPiece [1/2, 1/2] with | .ok v => v | .error _ => 0) = 10 ∧
    (match (piecewise twoTriangles).getPiece [2, 2] with | .ok v => v | .error _ => 0) = 0 := by
  decide +kernel

end Verif.Functions
