import Verif.Caching.Lemmas
/-!
# Cache properties (C01–C07)
-/

namespace Verif.Caching

variable {E : Type}

/-! ## C01 -/

/-- C01: for any entry printer/parser that is right on single entries, a matrix with at least one
row and one column survives being written and read. -/
theorem matrix_text_roundtrip (cd : Codec E) (hg : cd.Good) (m : Mat E) (h : m.Proper) :
    matrixFromString cd (matrixToString cd m) = .ok m :=
  roundtrip hg h

/-- C01 for rational entries as sympy prints them: no assumption on printer or parser is left. -/
theorem matrix_text_roundtrip_rational (m : Mat ℚ) (h : m.Proper) :
    matrixFromString ratCodec (matrixToString ratCodec m) = .ok m :=
  roundtrip ratCodec_good h

/-- Single rational numbers survive printing and parsing. -/
theorem rational_text_roundtrip (q : ℚ) : parseRat (printRat q) = .ok q :=
  parseRat_printRat q

example : (⟨2, 2, [[1, -3 / 4], [10, 0]]⟩ : Mat ℚ).Proper :=
  ⟨⟨rfl, by simp⟩, by decide, by decide⟩

/-- C01, the excluded shape: a matrix with no rows is written as the empty text, which cannot be
read back. -/
theorem empty_matrix_does_not_roundtrip :
    matrixFromString ratCodec (matrixToString ratCodec ⟨0, 0, []⟩) = .error .parse := rfl

/-! ## C02 -/

/-- The files represent the abstract cache for the given ids. -/
def Represents (cd : Codec E) (digest : Str → Str) (ids : List Str) (fs : Files)
    (a : Abstract E) : Prop :=
  ∀ t, ∀ i ∈ ids, match a (t, i) with
    | none => fs (fileName digest t i) = none
    | some m => m.Proper ∧ fs (fileName digest t i) = some (matrixToString cd m)

theorem load_of_represents {cd : Codec E} (hg : cd.Good) {digest : Str → Str} {ids : List Str}
    {fs : Files} {a : Abstract E} (h : Represents cd digest ids fs a) (t i : Str) (hi : i ∈ ids)
    (sz : Nat × Nat) :
    load cd digest fs t i sz = .ok (absLoad a (t, i) sz) := by
  have := h t i hi
  unfold load absLoad
  cases ha : a (t, i) with
  | none => rw [ha] at this; simp only at this; rw [this]
  | some m =>
    rw [ha] at this
    simp only at this
    rw [this.2]
    simp only [roundtrip hg this.1]
    by_cases hs : m.rows = sz.1 ∧ m.cols = sz.2
    · rw [if_pos hs, if_neg (by simp [hs.1, hs.2])]
    · rw [if_neg hs, if_pos (by tauto)]

theorem runOps_of_represents {cd : Codec E} (hg : cd.Good) {digest : Str → Str}
    {ids : List Str} (hd : GoodDigest digest ids) : ∀ (ops : List (Op E)),
    (∀ i ∈ opIds ops, i ∈ ids) → ProperOps ops → ∀ (fs : Files)
    (a : Abstract E), Represents cd digest ids fs a →
    runOps cd digest fs ops = (absRun a ops).map .ok
  | [], _, _, _, _, _ => rfl
  | .save t i m :: ops, hsub, hp, fs, a, h => by
    have hi : i ∈ ids := hsub i (by simp [opIds])
    have hsub' : ∀ i ∈ opIds ops, i ∈ ids := fun j hj => hsub j (by
      simp only [opIds, List.map_cons] at hj ⊢; exact List.mem_cons_of_mem _ hj)
    rw [runOps, absRun]
    have hm : m.Proper := hp (.save t i m) (by simp)
    refine runOps_of_represents hg hd ops hsub' (fun o ho => hp o (List.mem_cons_of_mem _ ho)) _ _ ?_
    intro t' i' hi'
    by_cases hk : (t', i') = (t, i)
    · obtain ⟨rfl, rfl⟩ := Prod.mk.inj hk
      simp [save, writeFile, hm]
    · have hne : fileName digest t' i' ≠ fileName digest t i := fun e => by
        obtain ⟨rfl, rfl⟩ := fileName_inj hd hi' hi e
        exact hk rfl
      simp only [if_neg hk, save, writeFile, if_neg hne]
      exact h t' i' hi'
  | .load t i sz :: ops, hsub, hp, fs, a, h => by
    have hi : i ∈ ids := hsub i (by simp [opIds])
    have hsub' : ∀ i ∈ opIds ops, i ∈ ids := fun j hj => hsub j (by
      simp only [opIds, List.map_cons] at hj ⊢; exact List.mem_cons_of_mem _ hj)
    rw [runOps, absRun, List.map_cons, load_of_represents hg h t i hi,
      runOps_of_represents hg hd ops hsub' (fun o ho => hp o (List.mem_cons_of_mem _ ho)) fs a h]

/-- C02: starting from an empty cache directory, every history of saves and loads answers each load
as the abstract cache does: the last matrix saved under exactly that type and id if its shape is the
requested one, and otherwise nothing. No load raises. -/
theorem cache_refines_map (cd : Codec E) (hg : cd.Good) (digest : Str → Str)
    (ops : List (Op E)) (hd : GoodDigest digest (opIds ops)) (hp : ProperOps ops) :
    runOps cd digest (fun _ => none) ops = (absRun (fun _ => none) ops).map .ok :=
  runOps_of_represents hg hd ops (fun _ h => h) hp _ _ (fun _ _ _ => rfl)

/-- C02 from an arbitrary directory: after a save, a load of the same key returns the saved matrix
and a load of any other key is not affected. -/
theorem load_after_save (cd : Codec E) (hg : cd.Good) (digest : Str → Str)
    (ids : List Str) (hd : GoodDigest digest ids) (fs : Files) (t i : Str) (hi : i ∈ ids)
    (m : Mat E) (hm : m.Proper) :
    load cd digest (save cd digest fs t i m) t i (m.rows, m.cols) = .ok (some m) ∧
    ∀ t', ∀ i' ∈ ids, ∀ sz, (t', i') ≠ (t, i) →
      load cd digest (save cd digest fs t i m) t' i' sz = load cd digest fs t' i' sz := by
  constructor
  · simp [load, save, writeFile, roundtrip hg hm]
  · intro t' i' hi' sz hk
    have hne : fileName digest t' i' ≠ fileName digest t i := fun e => by
      obtain ⟨rfl, rfl⟩ := fileName_inj hd hi' hi e
      exact hk rfl
    simp [load, save, writeFile, hne]

/-- The hypotheses of `cache_refines_map` are satisfiable by a history that saves and loads: a
save under one id, a save of another matrix under the same id, and a load that sees the second. -/
example : GoodDigest (fun s => if s = ['x'] then ['0'] else ['1']) [['x'], ['y']] ∧
    ProperOps [.save ['a'] ['x'] ⟨1, 1, [[(5 : ℚ)]]⟩, .save ['a'] ['x'] ⟨1, 1, [[7]]⟩,
      .load ['a'] ['x'] (1, 1)] ∧
    absRun (fun _ => none) [.save ['a'] ['x'] ⟨1, 1, [[(5 : ℚ)]]⟩, .save ['a'] ['x'] ⟨1, 1, [[7]]⟩,
      .load ['a'] ['x'] (1, 1)] = [some ⟨1, 1, [[7]]⟩] := by
  refine ⟨⟨fun s t => by split <;> split <;> rfl, by decide⟩, ?_, by simp [absRun, absLoad]⟩
  intro op hop
  simp only [List.mem_cons, List.not_mem_nil, or_false] at hop
  rcases hop with rfl | rfl | rfl
  · exact ⟨⟨rfl, by simp⟩, by decide, by decide⟩
  · exact ⟨⟨rfl, by simp⟩, by decide, by decide⟩
  · trivial

/-! ## C03 -/

/-- C03: whatever is on disk, a matrix returned by a load has the requested shape in every row. -/
theorem load_shape (cd : Codec E) (digest : Str → Str) (fs : Files) (t i : Str) (sz : Nat × Nat)
    (m : Mat E) (h : load cd digest fs t i sz = .ok (some m)) :
    m.rows = sz.1 ∧ m.cols = sz.2 ∧ m.data.length = sz.1 ∧ ∀ r ∈ m.data, r.length = sz.2 := by
  unfold load at h
  split at h
  · cases h
  · split at h
    · cases h
    · rename_i mat hmat
      split at h
      · cases h
      · rename_i hs
        simp only [not_or, not_not] at hs
        injection h with h
        injection h with h
        subst h
        unfold matrixFromString at hmat
        split at hmat
        · cases hmat
        · obtain ⟨_, hwf⟩ := mkMatrix_ok hmat
          exact ⟨hs.1, hs.2, hwf.1.trans hs.1, fun r hr => (hwf.2 r hr).trans hs.2⟩

/-- C03: a missing file gives `None`. -/
theorem load_missing (cd : Codec E) (digest : Str → Str) (fs : Files) (t i : Str) (sz : Nat × Nat)
    (h : fs (fileName digest t i) = none) : load cd digest fs t i sz = .ok none := by
  simp [load, h]

/-- C03: a readable matrix of another shape gives `None`, it is not returned and does not raise. -/
theorem load_other_shape (cd : Codec E) (digest : Str → Str) (fs : Files) (t i : Str)
    (sz : Nat × Nat) (text : Str) (m : Mat E) (h : fs (fileName digest t i) = some text)
    (hm : matrixFromString cd text = .ok m) (hs : (m.rows, m.cols) ≠ sz) :
    load cd digest fs t i sz = .ok none := by
  have : m.rows ≠ sz.1 ∨ m.cols ≠ sz.2 := by
    by_contra hc
    push Not at hc
    exact hs (Prod.ext hc.1 hc.2)
  simp only [load, h, hm, if_pos this]

/-- A load that does return a matrix. -/
example : load ratCodec (fun s => s) (fun _ => some "1,2;3,-4".toList) [] [] (2, 2) =
    .ok (some ⟨2, 2, [[1, 2], [3, -4]]⟩) := by decide +kernel

/-! ## C04 -/

/-- C04 fails for the code: saving the 1×1 matrix `[12]` and crashing after one character leaves a
file from which a later load returns the matrix `[1]`. -/
theorem crash_can_load_wrong_matrix :
    ∃ (m : Mat ℚ) (k : Nat) (m' : Mat ℚ), m.Proper ∧ m' ≠ m ∧
      load ratCodec (fun s => s) (saveCrash ratCodec (fun s => s) (fun _ => none) [] [] m k) [] []
        (m.rows, m.cols) = .ok (some m') := by
  refine ⟨⟨1, 1, [[12]]⟩, 1, ⟨1, 1, [[1]]⟩, ⟨⟨rfl, by simp⟩, by decide, by decide⟩, by decide, ?_⟩
  decide +kernel

/-- C04, a second failure: a crash right after the file was opened leaves an empty file and every
later load raises instead of returning `None`. -/
theorem crash_at_start_makes_load_raise (digest : Str → Str) (fs : Files) (t i : Str) (m : Mat ℚ)
    (sz : Nat × Nat) :
    load ratCodec digest (saveCrash ratCodec digest fs t i m 0) t i sz = .error .parse := by
  simp [load, saveCrash, writeFile, matrixFromString, splitOn, ratCodec, parseRat,
    parseUnsigned, parseNat]

/-- Rows parsed from a cut text, when there are as many as in the full matrix. -/
theorem cut_parts {c : Char} {F : Type} {f : Str → Except Err F} {parts : List Str} {vals : List F}
    (hne : parts ≠ []) (hsep : ∀ p ∈ parts, c ∉ p) (hparts : parts.mapM f = .ok vals) {k : Nat}
    {out : List F} (h : (splitOn c ((joinWith c parts).take k)).mapM f = .ok out)
    (hlen : out.length = parts.length) :
    ∃ s p x, parts[parts.length - 1]? = some s ∧ p <+: s ∧ f p = .ok x ∧
      out = vals.take (parts.length - 1) ++ [x] := by
  obtain ⟨i, p, s, h1, h2, h3⟩ := splitOn_take_joinWith parts hne hsep k
  rw [h3] at h
  have hl := mapM_length _ _ _ h
  have hi : i < parts.length := by
    rcases List.getElem?_eq_some_iff.1 h1 with ⟨hi, _⟩
    exact hi
  have hi' : i = parts.length - 1 := by
    simp only [List.length_append, List.length_take, List.length_singleton] at hl
    omega
  obtain ⟨r₁, r₂, e, e1, e2⟩ := mapM_append_ok _ _ _ _ h
  rw [mapM_ok_cons, mapM_ok_nil] at e2
  split at e2
  · cases e2
  · rename_i x hx
    simp only at e2
    injection e2 with e2
    have hv : parts = parts.take i ++ parts.drop i := (List.take_append_drop _ _).symm
    rw [hv] at hparts
    obtain ⟨v₁, v₂, ev, ev1, _⟩ := mapM_append_ok _ _ _ _ hparts
    rw [e1] at ev1
    injection ev1 with ev1
    subst ev1 ev e2 e hi'
    refine ⟨s, p, x, h1, h2, hx, ?_⟩
    have : r₁.length = parts.length - 1 := by
      have := mapM_length _ _ _ e1
      simp only [List.length_take] at this
      omega
    rw [← this, List.take_left]

/-- C04, the part that holds: a matrix loaded after a crash in the middle of a save has the right
shape and agrees with the saved matrix in every entry except possibly the very last one.
Missing: agreement in the last entry, which the code does not guarantee. -/
theorem crash_load_partial (cd : Codec E) (hg : cd.Good) (digest : Str → Str) (fs : Files)
    (t i : Str) (m m' : Mat E) (hm : m.Proper) (k : Nat)
    (h : load cd digest (saveCrash cd digest fs t i m k) t i (m.rows, m.cols) = .ok (some m')) :
    m'.rows = m.rows ∧ m'.cols = m.cols ∧
    ∀ a b, a < m.rows → b < m.cols → (a, b) ≠ (m.rows - 1, m.cols - 1) →
      m'.entry a b = m.entry a b := by
  have hshape := load_shape _ _ _ _ _ _ _ h
  refine ⟨hshape.1, hshape.2.1, ?_⟩
  unfold load at h
  simp only [saveCrash, writeFile, if_true] at h
  split at h
  · cases h
  · rename_i mat hmat
    split at h
    · cases h
    · injection h with h
      injection h with h
      subst h
      unfold matrixFromString at hmat
      split at hmat
      · cases hmat
      · rename_i out hout
        obtain ⟨hdata, hwf⟩ := mkMatrix_ok hmat
        have hlen : out.length = (m.data.map fun row => joinWith ',' (row.map cd.print)).length := by
          rw [List.length_map, hm.wf.1, ← hdata, hshape.2.2.1]
        have hsep : ∀ p ∈ m.data.map (fun row => joinWith ',' (row.map cd.print)), ';' ∉ p := by
          intro p hp
          obtain ⟨row, _, rfl⟩ := List.mem_map.1 hp
          exact row_no_semicolon hg row
        obtain ⟨s, p, x, hs, hp, hx, hout'⟩ := cut_parts (c := ';') (vals := m.data)
          (by simpa using data_ne_nil hm) hsep (parse_rows hg _ (row_ne_nil hm)) hout hlen
        rw [List.length_map, hm.wf.1] at hs hout'
        rw [List.getElem?_map, Option.map_eq_some_iff] at hs
        obtain ⟨lastRow, hlast, rfl⟩ := hs
        have hlastmem : lastRow ∈ m.data := List.mem_of_getElem? hlast
        have hxlen : x.length = m.cols := hshape.2.2.2 x (by rw [hdata, hout']; simp)
        have hrow : (splitOn ',' ((joinWith ',' (lastRow.map cd.print)).take p.length)).mapM cd.parse
            = .ok x := by
          rw [← List.prefix_iff_eq_take.1 hp]; exact hx
        obtain ⟨_, _, y, _, _, _, hx'⟩ := cut_parts (c := ',') (vals := lastRow)
          (by simpa using row_ne_nil hm _ hlastmem)
          (by
            intro q hq
            obtain ⟨e, _, rfl⟩ := List.mem_map.1 hq
            exact hg.no_comma e)
          (mapM_parse_print hg _) hrow
          (by rw [List.length_map, hxlen, hm.wf.2 _ hlastmem])
        rw [List.length_map, hm.wf.2 _ hlastmem] at hx'
        intro a b ha hb hab
        unfold Mat.entry
        rw [hdata, hout']
        have hdl := hm.wf.1
        by_cases hal : a = m.rows - 1
        · have hbl : b < m.cols - 1 := by
            have : b ≠ m.cols - 1 := fun e => hab (by rw [hal, e])
            omega
          subst hal
          rw [List.getElem?_append_right (by simp), List.length_take, hdl]
          rw [show m.rows - 1 - min (m.rows - 1) m.rows = 0 by omega]
          simp only [List.getElem?_cons_zero, Option.bind_some, hlast]
          have hll := hm.wf.2 _ hlastmem
          rw [hx', List.getElem?_append_left (by rw [List.length_take]; omega),
            List.getElem?_take_of_lt hbl]
        · rw [List.getElem?_append_left (by rw [List.length_take]; omega),
            List.getElem?_take_of_lt (by omega)]

/-- A crash point from which a load does succeed, with a wrong last entry. -/
example : load ratCodec (fun s => s) (saveCrash ratCodec (fun s => s) (fun _ => none) [] []
    ⟨2, 2, [[1, 2], [3, -45]]⟩ 8) [] [] (2, 2) = .ok (some ⟨2, 2, [[1, 2], [3, -4]]⟩) := by
  decide +kernel

/-! ## C05 -/

/-- The element computes square matrices of its number of DOFs, and has at least one DOF. -/
def Elem.Sound (e : Elem E) : Prop :=
  ∀ inv m, e.compute inv = .ok m → m.Proper ∧ m.rows = e.ndofs ∧ m.cols = e.ndofs

/-- Elements with the same cache id compute the same matrices. -/
def HonestIds (calls : List (Call E)) : Prop :=
  ∀ c ∈ calls, ∀ c' ∈ calls, c.elem.cacheId = c'.elem.cacheId →
    ∀ inv, c.elem.compute inv = c'.elem.compute inv

/-- Every file in the directory was written for one of the elements. -/
def HonestFiles (cd : Codec E) (digest : Str → Str) (all : List (Call E)) (fs : Files) : Prop :=
  ∀ n text, fs n = some text → ∃ c ∈ all, ∃ inv m, c.elem.compute inv = .ok m ∧
    n = fileName digest (matrixType inv) c.elem.cacheId ∧ text = matrixToString cd m

theorem matrixType_inj {a b : Bool} (h : matrixType a = matrixType b) : a = b := by
  cases a <;> cases b <;> first | rfl | exact absurd h (by decide)

theorem getDualMatrix_spec {cd : Codec E} (hg : cd.Good) {digest : Str → Str}
    {all : List (Call E)} (hd : GoodDigest digest (all.map fun c => c.elem.cacheId)) (hh : HonestIds all)
    (hs : ∀ c ∈ all, c.elem.Sound) {fs : Files} (hf : HonestFiles cd digest all fs) {c : Call E}
    (hc : c ∈ all) :
    (getDualMatrix cd digest fs c.elem c.inverse c.caching).1 = c.elem.compute c.inverse ∧
    HonestFiles cd digest all (getDualMatrix cd digest fs c.elem c.inverse c.caching).2 := by
  unfold getDualMatrix
  split
  swap
  · exact ⟨rfl, hf⟩
  cases hfile : fs (fileName digest (matrixType c.inverse) c.elem.cacheId) with
  | none =>
    simp only [load, hfile]
    cases hcomp : c.elem.compute c.inverse with
    | error e => exact ⟨rfl, hf⟩
    | ok m =>
      refine ⟨rfl, ?_⟩
      intro n text hn
      simp only [save, writeFile] at hn
      split at hn
      · rename_i hname
        injection hn with hn
        exact ⟨c, hc, c.inverse, m, hcomp, hname, hn.symm⟩
      · exact hf n text hn
  | some text =>
    obtain ⟨c', hc', inv, m, hm, hn, ht⟩ := hf _ _ hfile
    obtain ⟨e1, e2⟩ := fileName_inj hd (List.mem_map_of_mem hc) (List.mem_map_of_mem hc') hn
    have e3 := matrixType_inj e1
    subst e3
    have hm' : c.elem.compute c.inverse = .ok m := (hh c hc c' hc' e2 _).trans hm
    obtain ⟨hp, hr, hcl⟩ := hs c hc _ _ hm'
    simp only [load, hfile, ht, roundtrip hg hp]
    rw [if_neg (by simp [hr, hcl])]
    exact ⟨hm'.symm, hf⟩

theorem runCalls_spec {cd : Codec E} (hg : cd.Good) {digest : Str → Str}
    {all : List (Call E)} (hd : GoodDigest digest (all.map fun c => c.elem.cacheId)) (hh : HonestIds all) (hs : ∀ c ∈ all, c.elem.Sound) :
    ∀ (calls : List (Call E)), (∀ c ∈ calls, c ∈ all) → ∀ fs, HonestFiles cd digest all fs →
      runCalls cd digest fs calls = calls.map fun c => c.elem.compute c.inverse
  | [], _, _, _ => rfl
  | c :: cs, hsub, fs, hf => by
    obtain ⟨h1, h2⟩ := getDualMatrix_spec hg hd hh hs hf (hsub c (by simp))
    simp only [runCalls, List.map_cons, h1]
    rw [runCalls_spec hg hd hh hs cs (fun c' hc' => hsub c' (List.mem_cons_of_mem _ hc')) _ h2]

/-- C05: for every history of `get_dual_matrix` calls sharing one cache directory, each call returns
(or raises) exactly what it would with `caching=False`. -/
theorem dual_matrix_cache_transparent (cd : Codec E) (hg : cd.Good) (digest : Str → Str)
    (calls : List (Call E)) (hd : GoodDigest digest (calls.map fun c => c.elem.cacheId)) (hh : HonestIds calls)
    (hs : ∀ c ∈ calls, c.elem.Sound) :
    runCalls cd digest (fun _ => none) calls = calls.map fun c => c.elem.compute c.inverse :=
  runCalls_spec hg hd hh hs calls (fun _ h => h) _ (fun _ _ h => by cases h)

/-- With caching switched off, or for a class that does not allow it, no file is read or written. -/
theorem getDualMatrix_no_caching (cd : Codec E) (digest : Str → Str) (fs : Files) (e : Elem E)
    (inverse caching : Bool) (h : caching = false ∨ e.cacheFlag = false) :
    getDualMatrix cd digest fs e inverse caching = (e.compute inverse, fs) := by
  rcases h with h | h <;> simp [getDualMatrix, h]

/-- The cache is used: after a successful call, another call for the same id and type returns the
stored matrix without computing anything (whatever `compute` would do), and leaves the files as they
are. -/
theorem getDualMatrix_reuses (cd : Codec E) (hg : cd.Good) (digest : Str → Str) (fs : Files)
    (e e' : Elem E) (hs : e.Sound) (inverse : Bool) (m : Mat E) (hc : e.cacheFlag = true)
    (hc' : e'.cacheFlag = true) (hid : e'.cacheId = e.cacheId) (hn : e'.ndofs = e.ndofs)
    (hmiss : load cd digest fs (matrixType inverse) e.cacheId (e.ndofs, e.ndofs) = .ok none)
    (hm : e.compute inverse = .ok m) :
    let fs' := (getDualMatrix cd digest fs e inverse true).2
    getDualMatrix cd digest fs' e' inverse true = (.ok m, fs') := by
  obtain ⟨hp, hr, hcol⟩ := hs inverse m hm
  have hl : load cd digest (save cd digest fs (matrixType inverse) e.cacheId m)
      (matrixType inverse) e.cacheId (e.ndofs, e.ndofs) = .ok (some m) := by
    rw [← hr]
    conv_lhs => rw [show (m.rows, m.rows) = (m.rows, m.cols) by rw [hcol, hr]]
    simp [load, save, writeFile, roundtrip hg hp]
  simp [getDualMatrix, hc, hc', hid, hn, hmiss, hm, hl]

/-- Two different elements, each called twice with caching: the hypotheses hold. -/
example :
    let e1 : Elem ℚ := ⟨['A'], ['1'], ['v'], ['k'], ['u'], true, 1,
      fun inv => .ok ⟨1, 1, [[if inv then 1 / 2 else 2]]⟩⟩
    let e2 : Elem ℚ := ⟨['B'], ['1'], ['v'], ['k'], ['u'], true, 1, fun inv =>
      if inv then .error .compute else .ok ⟨1, 1, [[0]]⟩⟩
    let calls : List (Call ℚ) := [⟨e1, true, true⟩, ⟨e2, true, true⟩, ⟨e1, true, true⟩,
      ⟨e2, false, true⟩]
    HonestIds calls ∧ ∀ c ∈ calls, c.elem.Sound := by
  intro e1 e2 calls
  constructor
  · intro c hc c' hc' hid inv
    simp only [calls, List.mem_cons, List.not_mem_nil, or_false] at hc hc'
    rcases hc with rfl | rfl | rfl | rfl <;> rcases hc' with rfl | rfl | rfl | rfl <;>
      first | rfl | exact absurd hid (by decide)
  · intro c hc
    simp only [calls, List.mem_cons, List.not_mem_nil, or_false] at hc
    have h1 : e1.Sound := by
      intro inv m hm
      injection hm with hm
      subst hm
      exact ⟨⟨⟨rfl, by simp⟩, Nat.zero_lt_one, Nat.zero_lt_one⟩, rfl, rfl⟩
    have h2 : e2.Sound := by
      intro inv m hm
      cases inv
      · injection hm with hm
        subst hm
        exact ⟨⟨⟨rfl, by simp⟩, Nat.zero_lt_one, Nat.zero_lt_one⟩, rfl, rfl⟩
      · cases hm
    rcases hc with rfl | rfl | rfl | rfl
    exacts [h1, h2, h1, h2]

/-! ## C06 -/

theorem sep_inj {c : Char} {s t s' t' : Str} (hs : c ∉ s) (hs' : c ∉ s')
    (h : s ++ c :: t = s' ++ c :: t') : s = s' ∧ t = t' := by
  induction s generalizing s' with
  | nil =>
    cases s' with
    | nil => exact ⟨rfl, by simpa using h⟩
    | cons a s' =>
      simp only [List.nil_append, List.cons_append, List.cons.injEq] at h
      exact absurd h.1 (by simp only [List.mem_cons, not_or] at hs'; exact hs'.1)
  | cons a s ih =>
    cases s' with
    | nil =>
      simp only [List.nil_append, List.cons_append, List.cons.injEq] at h
      exact absurd h.1.symm (by simp only [List.mem_cons, not_or] at hs; exact hs.1)
    | cons b s' =>
      simp only [List.cons_append, List.cons.injEq] at h
      simp only [List.mem_cons, not_or] at hs hs'
      obtain ⟨e1, e2⟩ := ih hs.2 hs'.2 h.2
      exact ⟨by rw [h.1, e1], e2⟩

theorem sep_inj_right {c : Char} {s t s' t' : Str} (ht : c ∉ t) (ht' : c ∉ t')
    (h : s ++ c :: t = s' ++ c :: t') : s = s' ∧ t = t' := by
  have h2 := congrArg List.reverse h
  simp only [List.reverse_append, List.reverse_cons, List.append_assoc, List.singleton_append]
    at h2
  obtain ⟨e1, e2⟩ := sep_inj (by simpa using ht) (by simpa using ht') h2
  exact ⟨List.reverse_injective e2, List.reverse_injective e1⟩

/-- The shapes that the printed fields have: a class name and an order print without spaces, a
tuple of vertices prints without `{`, a dictionary prints as `{...}`, a version stamp has no `}`. -/
structure Elem.PrintedFields (e : Elem E) : Prop where
  name : ' ' ∉ e.className
  order : ' ' ∉ e.order
  vertices : '{' ∉ e.vertices
  kwargs : ∃ k, e.kwargs = '{' :: (k ++ ['}'])
  stamp : '}' ∉ e.lastUpdated

/-- C06: equal cache ids force equal class name, order, vertices, options and version stamp. -/
theorem cacheId_injective (e e' : Elem E) (h : e.PrintedFields) (h' : e'.PrintedFields)
    (hid : e.cacheId = e'.cacheId) :
    e.className = e'.className ∧ e.order = e'.order ∧ e.vertices = e'.vertices ∧
      e.kwargs = e'.kwargs ∧ e.lastUpdated = e'.lastUpdated := by
  obtain ⟨k, hk⟩ := h.kwargs
  obtain ⟨k', hk'⟩ := h'.kwargs
  unfold Elem.cacheId at hid
  rw [hk, hk'] at hid ⊢
  simp only [List.append_assoc, List.cons_append] at hid
  obtain ⟨e1, hid⟩ := sep_inj h.name h'.name hid
  obtain ⟨e2, hid⟩ := sep_inj h.order h'.order hid
  have hid2 : (e.vertices ++ [' ']) ++ '{' :: (k ++ '}' :: ' ' :: e.lastUpdated) =
      (e'.vertices ++ [' ']) ++ '{' :: (k' ++ '}' :: ' ' :: e'.lastUpdated) := by
    simpa using hid
  obtain ⟨e3, hid⟩ := sep_inj (by simp [h.vertices]) (by simp [h'.vertices]) hid2
  obtain ⟨e4, e5⟩ := sep_inj_right (by simp [h.stamp]) (by simp [h'.stamp]) hid
  refine ⟨e1, e2, List.append_cancel_right e3, by rw [e4], ?_⟩
  simpa using e5

example : (⟨"Lagrange".toList, "2".toList, "((0, 0), (1, 0), (0, 1))".toList,
    "{'variant': 'equispaced'}".toList, "2023.09".toList, true, 6,
    fun _ => .error .compute⟩ : Elem ℚ).PrintedFields :=
  ⟨by decide, by decide, by decide, ⟨"'variant': 'equispaced'".toList, by decide⟩, by decide⟩

/-! ## C07 -/

/-- C07: the dual matrix of one element and the inverse dual matrix of any element are in different
files, whatever the digest. -/
theorem dual_and_inverse_files_disjoint (digest : Str → Str) (i j : Str) :
    fileName digest (matrixType true) i ≠ fileName digest (matrixType false) j := by
  intro h
  have := congrArg (fun s => s[4]?) h
  simp [fileName, matrixType] at this

/-- C07: distinct ids of one kind use distinct files when the digest separates them. -/
theorem files_separate_ids (digest : Str → Str) (i j : Str) (hd : GoodDigest digest [i, j])
    (inv : Bool) (hij : i ≠ j) : fileName digest (matrixType inv) i ≠ fileName digest (matrixType inv) j :=
  fun h => hij (fileName_inj hd (by simp) (by simp) h).2

end Verif.Caching
