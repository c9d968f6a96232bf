import Verif.Caching.Props
import Verif.Create.Classes
import Verif.References.Maps
/-!
# The cache ids of the elements of the library

The assumption of C05, that elements with the same cache id have the same matrices, for the element classes of
`symfem/elements`.  Several classes have the same `__name__`: what separates their elements are the vertices.
-/

namespace Verif.Caching
open Verif.References Verif.Create

/-! ### The model -/

/-- The rest of the text of a tuple after an entry. -/
def tupleTail {α : Type} (pr : α → Str) : List α → Str
  | [] => []
  | a :: l => ',' :: ' ' :: (pr a ++ tupleTail pr l)

/-- The text of a Python tuple, where the text of an entry is given by `pr`. -/
def tupleText {α : Type} (pr : α → Str) : List α → Str
  | [] => ['(', ')']
  | [a] => '(' :: (pr a ++ [',', ')'])
  | a :: b :: l => '(' :: (pr a ++ (tupleTail pr (b :: l) ++ [')']))

/-- `f"{self.reference.vertices}"` for vertices with rational coordinates (symfem/finite_element.py:690): a tuple of tuples. -/
def verticesText (vs : List (List ℚ)) : Str := tupleText (tupleText printRat) vs

/-- `__class__.__name__` of a class with the path `file.name`. -/
def className (c : ElementClass) : Str := (c.path.toList.dropWhile (· ≠ '.')).drop 1

/-- What an element is created from (symfem/create.py:262-338): a class, a cell, its vertices, the order, and the other
arguments of the constructor, as the text between the brackets of the dictionary `init_kwargs()`.  (The keys of the
dictionary are the names of the remaining arguments of the constructor in every class of `symfem/elements`.) -/
structure Made where
  cls : ElementClass
  cell : Cell
  vertices : List (List ℚ)
  order : ℤ
  options : Str

/-- The element, as far as the cache is concerned.  `matrices` are the matrices that are calculated, `ndofs` the number of
functionals, `stamp` is the version of the library (symfem/finite_element.py:584-585, 689-692). -/
def Made.elem {E : Type} (matrices : Made → Bool → Except Err (Mat E)) (ndofs : Made → Nat) (stamp : Str) (m : Made) : Elem E where
  className := className m.cls
  order := printRat m.order
  vertices := verticesText m.vertices
  kwargs := '{' :: (m.options ++ ['}'])
  lastUpdated := stamp
  cacheFlag := true
  ndofs := ndofs m
  compute := matrices m

/-! ### The specification -/

/-- An element of the library on a cell in its own dimension (`create_element` refuses other cells). -/
structure Made.Valid (m : Made) : Prop where
  cls : m.cls ∈ symfemClasses
  cell : cellName m.cell ∈ m.cls.references
  polygon : ∀ n, m.cell ≠ .dualPolygon n
  count : m.vertices.length = (refVerts (K := ℚ) m.cell).length
  coords : ∀ p ∈ m.vertices, p.length = m.cell.tdim

/-! ### Texts of tuples -/

/-- The text starts with a separator. -/
def Ends (r : Str) : Prop := ∃ s, r = ',' :: s ∨ r = ')' :: s

/-- Two texts followed by separators agree only if the entries do. -/
structure Separated {α : Type} (pr : α → Str) : Prop where
  inj : ∀ a a' r r', Ends r → Ends r' → pr a ++ r = pr a' ++ r' → a = a' ∧ r = r'
  start : ∀ a, ∃ c s, pr a = c :: s ∧ c ≠ ')'

theorem tupleTail_inj {α : Type} {pr : α → Str} (h : Separated pr) : ∀ (l l' : List α) (r r' : Str),
    tupleTail pr l ++ ')' :: r = tupleTail pr l' ++ ')' :: r' → l = l' ∧ r = r'
  | [], [], r, r', e => by simpa [tupleTail] using e
  | [], b :: l', r, r', e => by simp [tupleTail] at e
  | a :: l, [], r, r', e => by simp [tupleTail] at e
  | a :: l, b :: l', r, r', e => by
    simp only [tupleTail, List.cons_append, List.cons.injEq, true_and, List.append_assoc] at e
    have hends : ∀ (l : List α) (r : Str), Ends (tupleTail pr l ++ ')' :: r) := by
      intro l r
      cases l with
      | nil => exact ⟨r, Or.inr rfl⟩
      | cons a l => exact ⟨_, Or.inl rfl⟩
    obtain ⟨e1, e2⟩ := h.inj _ _ _ _ (hends l r) (hends l' r') e
    obtain ⟨e3, e4⟩ := tupleTail_inj h l l' r r' e2
    exact ⟨by rw [e1, e3], e4⟩

theorem tupleText_eq {α : Type} (pr : α → Str) (a : α) (l : List α) (r : Str) : ∃ q, Ends q ∧
    tupleText pr (a :: l) ++ r = '(' :: (pr a ++ q) ∧ q = (match l with
      | [] => ',' :: ')' :: r
      | b :: l => tupleTail pr (b :: l) ++ ')' :: r) := by
  cases l with
  | nil => exact ⟨_, ⟨_, Or.inl rfl⟩, by simp [tupleText], rfl⟩
  | cons b l => exact ⟨_, ⟨_, Or.inl rfl⟩, by simp [tupleText, tupleTail], rfl⟩

theorem tupleText_inj {α : Type} {pr : α → Str} (h : Separated pr) (l l' : List α) (r r' : Str)
    (e : tupleText pr l ++ r = tupleText pr l' ++ r') : l = l' ∧ r = r' := by
  cases l with
  | nil =>
    cases l' with
    | nil => simpa [tupleText] using e
    | cons b l' =>
      obtain ⟨q, -, h1, -⟩ := tupleText_eq pr b l' r'
      obtain ⟨c, s, h2, h3⟩ := h.start b
      rw [h1, h2] at e
      simp only [tupleText, List.cons_append, List.cons.injEq, true_and] at e
      exact absurd e.1.symm h3
  | cons a l =>
    obtain ⟨q, hq, h1, h1'⟩ := tupleText_eq pr a l r
    cases l' with
    | nil =>
      obtain ⟨c, s, h2, h3⟩ := h.start a
      rw [h1, h2] at e
      simp only [tupleText, List.cons_append, List.cons.injEq, true_and] at e
      exact absurd e.1 h3
    | cons b l' =>
      obtain ⟨q', hq', h2, h2'⟩ := tupleText_eq pr b l' r'
      rw [h1, h2, List.cons.injEq] at e
      obtain ⟨hab, hqq⟩ := h.inj _ _ _ _ hq hq' e.2
      clear e
      rw [h1', h2'] at hqq
      subst hab
      cases l with
      | nil =>
        cases l' with
        | nil => simpa using hqq
        | cons c l' => simp [tupleTail] at hqq
      | cons b l =>
        cases l' with
        | nil => simp [tupleTail] at hqq
        | cons c l' =>
          obtain ⟨e1, e2⟩ := tupleTail_inj h _ _ _ _ hqq
          exact ⟨by rw [e1], e2⟩

theorem not_mem_printRat' {c : Char} (hd : ∀ d < 10, c ≠ digitChar d) (h1 : c ≠ '/') (h2 : c ≠ '-') (q : ℚ) :
    c ∉ printRat q := by
  have hn : ∀ n, c ∉ printNat n := fun n h => by
    obtain ⟨d, hd', e⟩ := mem_printNat h
    exact hd d hd' e
  have key : ∀ a b, c ∉ printUnsigned a b := by
    intro a b
    unfold printUnsigned
    split <;> simp [hn, h1]
  unfold printRat
  split <;> simp [key, h2]

theorem printRat_inj {p q : ℚ} (h : printRat p = printRat q) : p = q := by
  have := congrArg parseRat h
  rw [parseRat_printRat, parseRat_printRat] at this
  exact Except.ok.inj this

theorem sep_or {s s' r r' : Str} (h1 : ',' ∉ s) (h2 : ')' ∉ s) (h1' : ',' ∉ s') (h2' : ')' ∉ s') (hr : Ends r) (hr' : Ends r')
    (e : s ++ r = s' ++ r') : s = s' ∧ r = r' := by
  induction s generalizing s' with
  | nil =>
    cases s' with
    | nil => exact ⟨rfl, e⟩
    | cons a s' =>
      obtain ⟨t, rfl | rfl⟩ := hr <;> simp only [List.nil_append, List.cons_append, List.cons.injEq] at e
      · exact absurd (e.1 ▸ List.mem_cons_self) h1'
      · exact absurd (e.1 ▸ List.mem_cons_self) h2'
  | cons a s ih =>
    cases s' with
    | nil =>
      obtain ⟨t, rfl | rfl⟩ := hr' <;> simp only [List.nil_append, List.cons_append, List.cons.injEq] at e
      · exact absurd (e.1 ▸ List.mem_cons_self) h1
      · exact absurd (e.1 ▸ List.mem_cons_self) h2
    | cons b s' =>
      simp only [List.cons_append, List.cons.injEq] at e
      simp only [List.mem_cons, not_or] at h1 h2 h1' h2'
      obtain ⟨e1, e2⟩ := ih h1.2 h2.2 h1'.2 h2'.2 e.2
      exact ⟨by rw [e.1, e1], e2⟩

theorem separated_rat : Separated printRat where
  inj a a' r r' hr hr' e := by
    have hc : ∀ q, ',' ∉ printRat q := fun q => not_mem_printRat (by simp) q
    have hb : ∀ q, ')' ∉ printRat q := not_mem_printRat' (by decide) (by decide) (by decide)
    obtain ⟨e1, e2⟩ := sep_or (hc _) (hb _) (hc _) (hb _) hr hr' e
    exact ⟨printRat_inj e1, e2⟩
  start a := by
    have hb : ')' ∉ printRat a := not_mem_printRat' (by decide) (by decide) (by decide) a
    have hn : printRat a ≠ [] := by
      unfold printRat printUnsigned
      split <;> split <;> simp [printNat_ne_nil]
    obtain ⟨c, s, h⟩ := List.exists_cons_of_ne_nil hn
    exact ⟨c, s, h, fun hc => hb (by rw [h, hc]; exact List.mem_cons_self)⟩

theorem separated_tuple {α : Type} {pr : α → Str} (h : Separated pr) : Separated (tupleText pr) where
  inj a a' r r' _ _ e := tupleText_inj h a a' r r' e
  start a := by
    cases a with
    | nil => exact ⟨'(', _, rfl, by decide⟩
    | cons b l =>
      cases l with
      | nil => exact ⟨'(', _, rfl, by decide⟩
      | cons _ _ => exact ⟨'(', _, rfl, by decide⟩

/-- Different vertices have different texts. -/
theorem verticesText_inj {v w : List (List ℚ)} (h : verticesText v = verticesText w) : v = w :=
  (tupleText_inj (separated_tuple separated_rat) v w [] [] (by simpa [verticesText] using h)).1

theorem not_mem_tuple {α : Type} {pr : α → Str} {c : Char} (h1 : c ≠ '(') (h2 : c ≠ ')') (h3 : c ≠ ',') (h4 : c ≠ ' ')
    (h : ∀ a, c ∉ pr a) (l : List α) : c ∉ tupleText pr l := by
  have ht : ∀ l, c ∉ tupleTail pr l := by
    intro l
    induction l with
    | nil => simp [tupleTail]
    | cons a l ih => simp [tupleTail, h3, h4, h, ih]
  match l with
  | [] => simp [tupleText, h1, h2]
  | [a] => simp [tupleText, h1, h2, h3, h]
  | a :: b :: l => simp [tupleText, h1, h2, h, ht]

/-! ### The classes -/

theorem className_space : ∀ c ∈ symfemClasses, ' ' ∉ className c := by decide +kernel

/-- Classes of the library with the same `__name__` have no cell in common. -/
theorem className_clash : ∀ c ∈ symfemClasses, ∀ c' ∈ symfemClasses, className c = className c' →
    ∀ r ∈ c.references, r ∈ c'.references → c = c' := by
  have h : ∀ c ∈ symfemClasses, ∀ c' ∈ symfemClasses, className c = className c' →
    ∀ r ∈ c.references, r ∈ c'.references → c.path = c'.path := by decide +kernel
  have hp : (symfemClasses.map ElementClass.path).Nodup := by decide +kernel
  exact fun c hc c' hc' hn r hr hr' => List.inj_on_of_nodup_map hp hc hc' (h c hc c' hc' hn r hr hr')

/-- There are classes with the same `__name__`. -/
example : ∃ c ∈ symfemClasses, ∃ c' ∈ symfemClasses, c ≠ c' ∧ className c = className c' := by decide +kernel

theorem cell_of_vertices {c c' : Cell} (h : ∀ n, c ≠ .dualPolygon n) (h' : ∀ n, c' ≠ .dualPolygon n)
    (hl : (refVerts (K := ℚ) c).length = (refVerts (K := ℚ) c').length) (ht : c.tdim = c'.tdim) : c = c' := by
  cases c <;> cases c' <;> first
    | rfl
    | exact absurd rfl (h _)
    | exact absurd rfl (h' _)
    | exact absurd hl (by decide)
    | exact absurd ht (by decide)

/-- Two elements of the library with the same cache id are the same element. -/
theorem library_ids {E : Type} (matrices : Made → Bool → Except Err (Mat E)) (ndofs : Made → Nat) {stamp : Str}
    (hs : '}' ∉ stamp) {m m' : Made} (hm : m.Valid) (hm' : m'.Valid)
    (h : (m.elem matrices ndofs stamp).cacheId = (m'.elem matrices ndofs stamp).cacheId) : m = m' := by
  have hp : ∀ m : Made, m.Valid → (m.elem matrices ndofs stamp).PrintedFields := fun m hm =>
    { name := className_space _ hm.cls
      order := not_mem_printRat' (by decide) (by decide) (by decide) _
      vertices := not_mem_tuple (by decide) (by decide) (by decide) (by decide)
        (not_mem_tuple (by decide) (by decide) (by decide) (by decide)
          (not_mem_printRat' (by decide) (by decide) (by decide))) _
      kwargs := ⟨_, rfl⟩
      stamp := hs }
  obtain ⟨h1, h2, h3, h4, -⟩ := cacheId_injective _ _ (hp m hm) (hp m' hm') h
  have hv : m.vertices = m'.vertices := verticesText_inj h3
  have ho : m.order = m'.order := by exact_mod_cast printRat_inj h2
  have hk : m.options = m'.options := List.append_cancel_right (List.cons.inj h4).2
  have hcell : m.cell = m'.cell := by
    have hc := hm.count
    have hc' := hm'.count
    rw [hv] at hc
    refine cell_of_vertices hm.polygon hm'.polygon (hc.symm.trans hc') ?_
    have hne : m'.vertices ≠ [] := by
      have : 0 < (refVerts (K := ℚ) m'.cell).length := by
        have := hm'.polygon
        cases hcc : m'.cell <;> first
          | exact absurd hcc (this _)
          | simp [refVerts]
      intro h0
      rw [h0] at hc'
      simp only [List.length_nil] at hc'
      omega
    obtain ⟨p, l, hpl⟩ := List.exists_cons_of_ne_nil hne
    have e1 := hm'.coords p (by rw [hpl]; exact List.mem_cons_self)
    have e2 := hm.coords p (by rw [hv, hpl]; exact List.mem_cons_self)
    exact e2.symm.trans e1
  have hcls : m.cls = m'.cls :=
    className_clash _ hm.cls _ hm'.cls h1 _ hm.cell (by rw [hcell]; exact hm'.cell)
  cases m
  cases m'
  simp only at hv ho hk hcell hcls
  subst hv ho hk hcell hcls
  rfl

/-- Caching never changes a dual matrix of an element of the library: whatever calls of `get_dual_matrix` are made on
whatever elements of the library with one cache directory, every call gives the matrix that would be calculated. -/
theorem library_cache_transparent {E : Type} (cd : Codec E) (hg : cd.Good) (digest : Str → Str)
    (matrices : Made → Bool → Except Err (Mat E)) (ndofs : Made → Nat) {stamp : Str} (hs : '}' ∉ stamp)
    (hsound : ∀ m : Made, m.Valid → (m.elem matrices ndofs stamp).Sound)
    (calls : List (Made × Bool × Bool)) (hv : ∀ c ∈ calls, c.1.Valid)
    (hd : GoodDigest digest (calls.map fun c => (c.1.elem matrices ndofs stamp).cacheId)) :
    runCalls cd digest (fun _ => none) (calls.map fun c => ⟨c.1.elem matrices ndofs stamp, c.2.1, c.2.2⟩) =
      calls.map fun c => matrices c.1 c.2.1 := by
  rw [dual_matrix_cache_transparent cd hg digest _ (by simpa [List.map_map, Function.comp_def] using hd)]
  · rw [List.map_map]
    rfl
  · intro a ha b hb hab inv
    obtain ⟨x, hx, rfl⟩ := List.mem_map.1 ha
    obtain ⟨y, hy, rfl⟩ := List.mem_map.1 hb
    rw [show x.1 = y.1 from library_ids matrices ndofs hs (hv x hx) (hv y hy) hab]
  · intro a ha
    obtain ⟨x, hx, rfl⟩ := List.mem_map.1 ha
    exact hsound _ (hv x hx)

/-- Raviart-Thomas elements on a tetrahedron and on a quadrilateral: two classes with the same name. -/
def rtTetrahedron : Made where
  cls := (symfemClasses.find? (·.path = "rt.RaviartThomas")).getD ⟨"", [], [], none, none⟩
  cell := .tetrahedron
  vertices := refVerts .tetrahedron
  order := 1
  options := "'variant': 'equispaced'".toList

@[inherit_doc rtTetrahedron]
def rtQuadrilateral : Made where
  cls := (symfemClasses.find? (·.path = "q.RaviartThomas")).getD ⟨"", [], [], none, none⟩
  cell := .quadrilateral
  vertices := refVerts .quadrilateral
  order := 1
  options := "'variant': 'equispaced'".toList

/-- The hypotheses are met. -/
example : rtTetrahedron.Valid ∧ rtQuadrilateral.Valid ∧ className rtTetrahedron.cls = className rtQuadrilateral.cls :=
  ⟨⟨by decide +kernel, by decide +kernel, by intro n; simp [rtTetrahedron], rfl, by decide +kernel⟩,
    ⟨by decide +kernel, by decide +kernel, by intro n; simp [rtQuadrilateral], rfl, by decide +kernel⟩, by decide +kernel⟩

end Verif.Caching
