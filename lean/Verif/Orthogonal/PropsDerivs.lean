import Verif.Orthogonal.Pyramid
import Mathlib.Data.List.GetD

/-!
# The tables returned hold mixed partial derivatives (C29)
-/

set_option linter.unusedSectionVars false
set_option linter.unusedSimpArgs false

namespace Verif.Orthogonal

variable {A : Type*} [CommRing A] [Algebra ℚ A]

/-- `l[d][i]`, `none` if Python would raise `IndexError`. -/
def entry (l : List (List A)) (d i : ℕ) : Option A := (l[d]?).bind fun r : List A => r[i]?

/-- `l` has `D` rows of length `N`. -/
def Shape (l : List (List A)) (D N : ℕ) : Prop := l.length = D ∧ ∀ r ∈ l, r.length = N

theorem listing_shape (D N : ℕ) (T : ℕ → ℕ → A) : Shape (listing D N T) D N := by
  refine ⟨by simp [listing], ?_⟩
  intro r hr
  simp only [listing, List.mem_map] at hr
  obtain ⟨d, -, rfl⟩ := hr
  simp

theorem listing_entry {D N : ℕ} (T : ℕ → ℕ → A) {d i : ℕ} (hd : d < D) (hi : i < N) :
    entry (listing D N T) d i = some (T d i) := by
  simp [entry, listing, hd, hi]

/-! ### Products -/

theorem products_length (l l' : List A) : (products l l').length = l.length * l'.length := by
  induction l with
  | nil => simp [products]
  | cons a l ih =>
    rw [products] at ih
    rw [products, List.flatMap_cons, List.length_append, ih, List.length_map, List.length_cons]
    ring

theorem products_getElem? {l l' : List A} {a b : ℕ} {f g : A} (hf : l[a]? = some f)
    (hg : l'[b]? = some g) : (products l l')[a * l'.length + b]? = some (f * g) := by
  have hb : b < l'.length := (List.getElem?_eq_some_iff.1 hg).1
  induction l generalizing a with
  | nil => simp at hf
  | cons c l ih =>
    rw [products, List.flatMap_cons]
    cases a with
    | zero =>
      simp only [List.getElem?_cons_zero, Option.some.injEq] at hf
      subst hf
      rw [List.getElem?_append_left (by simpa using hb)]
      simp [hg]
    | succ a =>
      rw [List.getElem?_cons_succ] at hf
      have := ih hf
      rw [List.getElem?_append_right (by simp; nlinarith)]
      rw [List.length_map, show (a + 1) * l'.length + b - l'.length = a * l'.length + b by
        rw [Nat.succ_mul]; omega]
      exact this

/-! ### Rows set in a loop -/

theorem foldl_set_length (rows : List (ℕ × List A)) (t : List (List A)) :
    (rows.foldl (fun t r => t.set r.1 r.2) t).length = t.length := by
  induction rows generalizing t with
  | nil => rfl
  | cons r l ih => rw [List.foldl_cons, ih, List.length_set]

theorem foldl_set_other (rows : List (ℕ × List A)) (t : List (List A)) (d : ℕ)
    (h : ∀ r ∈ rows, r.1 ≠ d) : (rows.foldl (fun t r => t.set r.1 r.2) t)[d]? = t[d]? := by
  induction rows generalizing t with
  | nil => rfl
  | cons r l ih =>
    rw [List.foldl_cons, ih _ fun s hs => h s (by simp [hs]),
      List.getElem?_set_ne (h r (by simp))]

theorem setRows_get {D N : ℕ} {rows : List (ℕ × List A)} (hn : (rows.map Prod.fst).Nodup)
    {d : ℕ} {r : List A} (h : (d, r) ∈ rows) (hd : d < D) : (setRows D N rows)[d]? = some r := by
  obtain ⟨pre, post, rfl⟩ := List.append_of_mem h
  unfold setRows
  rw [List.foldl_append, List.foldl_cons, foldl_set_other]
  · rw [List.getElem?_set_self]
    rw [foldl_set_length]
    simpa using hd
  · rintro s hs rfl
    rw [List.map_append, List.map_cons, List.nodup_append, List.nodup_cons] at hn
    exact hn.2.1.1 (List.mem_map.2 ⟨s, hs, rfl⟩)

theorem setRows_shape {D N : ℕ} {rows : List (ℕ × List A)} (h : ∀ r ∈ rows, r.2.length = N) :
    Shape (setRows D N rows) D N := by
  unfold setRows
  have : ∀ t : List (List A), Shape t D N →
      Shape (rows.foldl (fun t r => t.set r.1 r.2) t) D N := by
    induction rows with
    | nil => exact fun t ht => ht
    | cons r l ih =>
      intro t ht
      rw [List.foldl_cons]
      apply ih fun s hs => h s (by simp [hs])
      refine ⟨by rw [List.length_set, ht.1], fun s hs => ?_⟩
      rcases List.mem_or_eq_of_mem_set hs with h' | h'
      · exact ht.2 s h'
      · rw [h']; exact h r (by simp)
  apply this
  refine ⟨by simp, fun r hr => ?_⟩
  rw [List.eq_of_mem_replicate hr]
  simp

/-! ### Derivations that do not see a polynomial -/

theorem der_hjac (D : Derivation ℚ A A) {l h : A} (hl : D l = 0) (hh : D h = 0) (a : ℚ) (n : ℕ) :
    D (hjac a l h n) = 0 := by
  induction n using Nat.strong_induction_on with
  | _ n ih =>
    by_cases h0 : n = 0
    · subst h0; rw [hjac, Derivation.map_one_eq_zero]
    rw [hjac_rec a l h n h0]
    simp [ih (n - 1) (by omega), ih (n - 2) (by omega), hl, hh]

theorem der_intervalTable (D : Derivation ℚ A A) {x : A} (hx : D x = 0) (order derivs i dx : ℕ)
    (hi : i ≤ order) (hd : dx ≤ derivs) : D (intervalTable x order derivs dx i) = 0 := by
  induction i using Nat.strong_induction_on generalizing dx with
  | _ i ih =>
    by_cases h0 : i = 0
    · subst h0
      rw [intervalTable_zero]
      split_ifs <;> simp
    rw [intervalTable_eq x order derivs dx i hd (by omega) hi]
    unfold intervalVal addIf
    rw [map_sub, map_add, Derivation.map_smul, Derivation.leibniz,
      ih (i - 1) (by omega) dx (by omega) hd]
    have e1 : ∀ c : ℚ, D (c • intervalTable x order derivs (dx - 1) (i - 1)) = 0 := fun c => by
      rw [Derivation.map_smul, ih (i - 1) (by omega) _ (by omega) (by omega), smul_zero]
    have e2 : ∀ c : ℚ, D (c • intervalTable x order derivs dx (i - 2)) = 0 := fun c => by
      rw [Derivation.map_smul, ih (i - 2) (by omega) _ (by omega) hd, smul_zero]
    split_ifs <;> simp [hx, der_two, e1, e2]

/-! ### The tables -/

theorem orthogonalInterval_shape (x : A) (order derivs : ℕ) :
    Shape (orthogonalInterval x order derivs) (derivs + 1) (order + 1) := listing_shape _ _ _

theorem interval_entry (D : Derivation ℚ A A) (x : A) (hx : D x = 1) {order derivs dx i : ℕ}
    (hd : dx ≤ derivs) (hi : i ≤ order) : entry (orthogonalInterval x order derivs) dx i =
      some (D^[dx] (hjac 0 (2 * x - 1) 1 i)) := by
  rw [orthogonalInterval, listing_entry _ (by omega) (by omega),
    intervalTable_closed D x hx order derivs i hi dx hd]

/-- **C29** Interval: entry `(dx, i)` is the derivative of order `dx` of entry `(0, i)`. -/
theorem orthogonalInterval_derivs (D : Derivation ℚ A A) (x : A) (hx : D x = 1)
    (order derivs dx i : ℕ) (hd : dx ≤ derivs) (hi : i < order + 1) :
    ∃ f, entry (orthogonalInterval x order derivs) 0 i = some f ∧
      entry (orthogonalInterval x order derivs) dx i = some (D^[dx] f) :=
  ⟨_, interval_entry D x hx (by omega) (by omega), interval_entry D x hx hd (by omega)⟩

theorem orthogonalTriangle_shape (x y : A) (order derivs : ℕ) :
    Shape (orthogonalTriangle x y order derivs) ((derivs + 1) * (derivs + 2) / 2)
      ((order + 1) * (order + 2) / 2) := listing_shape _ _ _

theorem triIndex_lt_of {a b n : ℕ} (h : a + b ≤ n) : triIndex a b < (n + 1) * (n + 2) / 2 :=
  (triIndex_bijOn n).mapsTo (x := (a, b)) h

theorem tetIndex_lt_of {a b c n : ℕ} (h : a + b + c ≤ n) :
    tetIndex a b c < (n + 1) * (n + 2) * (n + 3) / 6 :=
  (tetIndex_bijOn n).mapsTo (x := (a, b, c)) h

theorem pyrIndex_lt_of {a b c n : ℕ} (h : a + c ≤ n) (h' : b + c ≤ n) :
    pyrIndex n a b c < (2 * n + 3) * (n + 2) * (n + 1) / 6 :=
  (pyrIndex_bijOn n).mapsTo (x := (a, b, c)) ⟨h, h'⟩

theorem triangle_entry (Dx Dy : Derivation ℚ A A) (x y : A) (hxx : Dx x = 1) (hxy : Dx y = 0)
    (hyx : Dy x = 0) (hyy : Dy y = 1) {order derivs p q dx dy : ℕ}
    (hp : p + q ≤ order) (hd : dx + dy ≤ derivs) :
    entry (orthogonalTriangle x y order derivs) (triIndex dx dy) (triIndex q p) =
      some (Dx^[dx] (Dy^[dy] (triMember x y q p))) := by
  rw [orthogonalTriangle, listing_entry _ (triIndex_lt_of hd) (triIndex_lt_of (by omega)),
    ← triTable_closed Dx Dy x y hxx hxy hyx hyy order derivs p q dx dy hp hd]
  rfl

/-- **C29** Triangle: every entry of row `d_index(dx, dy)` is the mixed derivative of the entry of row
`0`. -/
theorem orthogonalTriangle_derivs (Dx Dy : Derivation ℚ A A) (x y : A) (hxx : Dx x = 1)
    (hxy : Dx y = 0) (hyx : Dy x = 0) (hyy : Dy y = 1) (order derivs dx dy i : ℕ)
    (hd : dx + dy ≤ derivs) (hi : i < (order + 1) * (order + 2) / 2) :
    ∃ f, entry (orthogonalTriangle x y order derivs) 0 i = some f ∧
      entry (orthogonalTriangle x y order derivs) (triIndex dx dy) i =
        some (Dx^[dx] (Dy^[dy] f)) := by
  obtain ⟨⟨q, p⟩, hqp, rfl⟩ := (triIndex_bijOn order).surjOn hi
  have hqp : q + p ≤ order := hqp
  exact ⟨_, triangle_entry (dx := 0) (dy := 0) Dx Dy x y hxx hxy hyx hyy (by omega) (by omega),
    triangle_entry Dx Dy x y hxx hxy hyx hyy (by omega) hd⟩

theorem orthogonalTetrahedron_shape (x y z : A) (order derivs : ℕ) :
    Shape (orthogonalTetrahedron x y z order derivs) ((derivs + 1) * (derivs + 2) * (derivs + 3) / 6)
      ((order + 1) * (order + 2) * (order + 3) / 6) := listing_shape _ _ _

theorem tetrahedron_entry (Dx Dy Dz : Derivation ℚ A A) (x y z : A)
    (hD : Partials Dx Dy Dz x y z) {order derivs p q r dx dy dz : ℕ}
    (hp : p + q + r ≤ order) (hd : dx + dy + dz ≤ derivs) :
    entry (orthogonalTetrahedron x y z order derivs) (tetIndex dx dy dz) (tetIndex r q p) =
      some (mixed Dx Dy Dz dx dy dz (tetMember x y z r q p)) := by
  rw [orthogonalTetrahedron, listing_entry _ (tetIndex_lt_of hd) (tetIndex_lt_of (by omega)),
    ← tetTable_closed Dx Dy Dz x y z hD order derivs p q r dx dy dz hp hd]
  rfl

/-- **C29** Tetrahedron: every entry of row `d_index(dx, dy, dz)` is the mixed derivative of the entry
of row `0`. -/
theorem orthogonalTetrahedron_derivs (Dx Dy Dz : Derivation ℚ A A) (x y z : A)
    (hD : Partials Dx Dy Dz x y z) (order derivs dx dy dz i : ℕ)
    (hd : dx + dy + dz ≤ derivs) (hi : i < (order + 1) * (order + 2) * (order + 3) / 6) :
    ∃ f, entry (orthogonalTetrahedron x y z order derivs) 0 i = some f ∧
      entry (orthogonalTetrahedron x y z order derivs) (tetIndex dx dy dz) i =
        some (Dx^[dx] (Dy^[dy] (Dz^[dz] f))) := by
  obtain ⟨⟨r, q, p⟩, hqp, rfl⟩ := (tetIndex_bijOn order).surjOn hi
  have hqp : r + q + p ≤ order := hqp
  have hqp' : p + q + r ≤ order := by omega
  exact ⟨_, tetrahedron_entry (dx := 0) (dy := 0) (dz := 0) Dx Dy Dz x y z hD hqp' (by omega),
    tetrahedron_entry Dx Dy Dz x y z hD hqp' hd⟩

theorem orthogonalPyramid_shape (x y z w : A) (order derivs : ℕ) :
    Shape (orthogonalPyramid x y z w order derivs) ((derivs + 1) * (derivs + 2) * (derivs + 3) / 6)
      ((2 * order + 3) * (order + 2) * (order + 1) / 6) := listing_shape _ _ _

theorem pyramid_entry (Dx Dy Dz : Derivation ℚ A A) (x y z w : A)
    (hD : Partials Dx Dy Dz x y z) (hw : w * (1 - z) = 1) {order derivs i j k dx dy dz : ℕ}
    (hi : i + k ≤ order) (hj : j + k ≤ order) (hd : dx + dy + dz ≤ derivs) :
    entry (orthogonalPyramid x y z w order derivs) (tetIndex dx dy dz) (pyrIndex order i j k) =
      some (mixed Dx Dy Dz dx dy dz (pyrMember x y z w i j k)) := by
  rw [orthogonalPyramid, listing_entry _ (tetIndex_lt_of hd) (pyrIndex_lt_of hi hj),
    ← pyrTable_closed Dx Dy Dz x y z w hD hw order derivs i j k dx dy dz hi hj hd]
  rfl

/-- **C29** Pyramid: every entry of row `d_index(dx, dy, dz)` is the mixed derivative of the entry of
row `0`. -/
theorem orthogonalPyramid_derivs (Dx Dy Dz : Derivation ℚ A A) (x y z w : A)
    (hD : Partials Dx Dy Dz x y z) (hw : w * (1 - z) = 1) (order derivs dx dy dz i : ℕ)
    (hd : dx + dy + dz ≤ derivs) (hi : i < (2 * order + 3) * (order + 2) * (order + 1) / 6) :
    ∃ f, entry (orthogonalPyramid x y z w order derivs) 0 i = some f ∧
      entry (orthogonalPyramid x y z w order derivs) (tetIndex dx dy dz) i =
        some (Dx^[dx] (Dy^[dy] (Dz^[dz] f))) := by
  obtain ⟨⟨a, b, c⟩, ⟨h1, h2⟩, rfl⟩ := (pyrIndex_bijOn order).surjOn hi
  exact ⟨_, pyramid_entry (dx := 0) (dy := 0) (dz := 0) Dx Dy Dz x y z w hD hw h1 h2 (by omega),
    pyramid_entry Dx Dy Dz x y z w hD hw h1 h2 hd⟩

/-! ### Product cells -/

theorem rowOf_get {l : List (List A)} {d i : ℕ} {f : A} (h : entry l d i = some f) :
    (rowOf l d)[i]? = some f := by
  unfold entry at h
  unfold rowOf
  cases hl : l[d]? with
  | none => rw [hl] at h; simp at h
  | some r => rw [hl] at h; simpa using h

theorem rowOf_length {l : List (List A)} {D N d : ℕ} (h : Shape l D N) (hd : d < D) :
    (rowOf l d).length = N := by
  unfold rowOf
  rw [List.getElem?_eq_getElem (by rw [h.1]; exact hd)]
  exact h.2 _ (List.getElem_mem _)

theorem nodup_tri (derivs : ℕ) (f : ℕ → ℕ → List A) :
    (((List.range (derivs + 1)).flatMap fun i => (List.range (derivs + 1 - i)).map fun j =>
      (triIndex i j, f i j)).map Prod.fst).Nodup := by
  have h := pairwise_loop (derivs + 1) _ fun i => pairwise_range (derivs + 1 - i)
  rw [List.map_flatMap]
  simp only [List.map_map, Function.comp_def]
  have : (((List.range (derivs + 1)).flatMap fun i => (List.range (derivs + 1 - i)).map fun j =>
      (i, j)).map fun s => triIndex s.1 s.2).Nodup := by
    rw [List.nodup_map_iff_inj_on (h.imp fun {a b} hab => by rintro rfl; omega)]
    rintro ⟨a, b⟩ _ ⟨c, d⟩ _ he
    obtain ⟨rfl, rfl⟩ := triIndex_inj he
    rfl
  rw [List.map_flatMap] at this
  simpa only [List.map_map, Function.comp_def] using this

theorem nodup_tet (derivs : ℕ) (f : ℕ → ℕ → ℕ → List A) :
    (((List.range (derivs + 1)).flatMap fun i => (List.range (derivs + 1 - i)).flatMap fun j =>
      (List.range (derivs + 1 - i - j)).map fun k =>
      (tetIndex i j k, f i j k)).map Prod.fst).Nodup := by
  have h := pairwise_loop (derivs + 1) _ fun i => pairwise_loop (derivs + 1 - i) _ fun j =>
    pairwise_range (derivs + 1 - i - j)
  simp only [List.map_flatMap, List.map_map, Function.comp_def] at h ⊢
  have : (((List.range (derivs + 1)).flatMap fun i => (List.range (derivs + 1 - i)).flatMap fun j =>
      (List.range (derivs + 1 - i - j)).map fun k => (i, j, k)).map
        fun s => tetIndex s.1 s.2.1 s.2.2).Nodup := by
    rw [List.nodup_map_iff_inj_on (h.imp fun {a b} hab => by rintro rfl; omega)]
    rintro ⟨a, b, c⟩ _ ⟨d, e, f⟩ _ he
    obtain ⟨rfl, rfl, rfl⟩ := tetIndex_inj he
    rfl
  simpa only [List.map_flatMap, List.map_map, Function.comp_def] using this

theorem orthogonalQuadrilateral_shape (x y : A) (order derivs : ℕ) :
    Shape (orthogonalQuadrilateral x y order derivs) ((derivs + 1) * (derivs + 2) / 2)
      ((order + 1) ^ 2) := by
  apply setRows_shape
  intro r hr
  simp only [List.mem_flatMap, List.mem_map, List.mem_range] at hr
  obtain ⟨i, hi, j, hj, rfl⟩ := hr
  rw [products_length, rowOf_length (orthogonalInterval_shape _ _ _) (by omega),
    rowOf_length (orthogonalInterval_shape _ _ _) (by omega), pow_two]

theorem quadrilateral_entry (Dx Dy : Derivation ℚ A A) (x y : A) (hxx : Dx x = 1) (hxy : Dx y = 0)
    (hyx : Dy x = 0) (hyy : Dy y = 1) {order derivs a b dx dy : ℕ}
    (ha : a ≤ order) (hb : b ≤ order) (hd : dx + dy ≤ derivs) :
    entry (orthogonalQuadrilateral x y order derivs) (triIndex dx dy) (a * (order + 1) + b) =
      some (Dx^[dx] (Dy^[dy] (hjac 0 (2 * x - 1) 1 a * hjac 0 (2 * y - 1) 1 b))) := by
  have hrow : (orthogonalQuadrilateral x y order derivs)[triIndex dx dy]? =
      some (products (rowOf (orthogonalInterval x order derivs) dx)
        (rowOf (orthogonalInterval y order derivs) dy)) := by
    refine setRows_get (nodup_tri derivs fun i j => products
      (rowOf (orthogonalInterval x order derivs) i) (rowOf (orthogonalInterval y order derivs) j))
      ?_ (triIndex_lt_of hd)
    simp only [List.mem_flatMap, List.mem_map, List.mem_range]
    exact ⟨dx, by omega, dy, by omega, rfl⟩
  have h1 := rowOf_get (interval_entry Dx x hxx (derivs := derivs) (dx := dx) (by omega) ha)
  have h2 := rowOf_get (interval_entry Dy y hyy (derivs := derivs) (dx := dy) (by omega) hb)
  have h := products_getElem? h1 h2
  rw [rowOf_length (orthogonalInterval_shape _ _ _) (by omega)] at h
  rw [entry, hrow, Option.bind_some, h]
  rw [mul_comm (hjac 0 (2 * x - 1) 1 a), iter_mul_const Dy (der_hjac Dy (by simp [hyx, der_two])
    (by simp) _ _), mul_comm _ (hjac 0 (2 * x - 1) 1 a), iter_mul_const Dx]
  rw [← intervalTable_closed Dy y hyy order derivs b hb dy (by omega)]
  exact der_intervalTable Dx hxy order derivs b dy hb (by omega)

/-- **C29** Quadrilateral: every entry of row `d_index(dx, dy)` is the mixed derivative of the entry
of row `0`. -/
theorem orthogonalQuadrilateral_derivs (Dx Dy : Derivation ℚ A A) (x y : A) (hxx : Dx x = 1)
    (hxy : Dx y = 0) (hyx : Dy x = 0) (hyy : Dy y = 1) (order derivs dx dy i : ℕ)
    (hd : dx + dy ≤ derivs) (hi : i < (order + 1) ^ 2) :
    ∃ f, entry (orthogonalQuadrilateral x y order derivs) 0 i = some f ∧
      entry (orthogonalQuadrilateral x y order derivs) (triIndex dx dy) i =
        some (Dx^[dx] (Dy^[dy] f)) := by
  have hb : i % (order + 1) < order + 1 := Nat.mod_lt _ (by omega)
  have ha : i / (order + 1) < order + 1 := by
    rw [Nat.div_lt_iff_lt_mul (by omega), ← pow_two]; exact hi
  have e : i / (order + 1) * (order + 1) + i % (order + 1) = i := Nat.div_add_mod' i (order + 1)
  rw [← e]
  exact ⟨_, quadrilateral_entry (dx := 0) (dy := 0) Dx Dy x y hxx hxy hyx hyy (by omega) (by omega)
    (by omega), quadrilateral_entry Dx Dy x y hxx hxy hyx hyy (by omega) (by omega) hd⟩

theorem orthogonalHexahedron_shape (x y z : A) (order derivs : ℕ) :
    Shape (orthogonalHexahedron x y z order derivs) ((derivs + 1) * (derivs + 2) * (derivs + 3) / 6)
      ((order + 1) ^ 3) := by
  apply setRows_shape
  intro r hr
  simp only [List.mem_flatMap, List.mem_map, List.mem_range] at hr
  obtain ⟨i, hi, j, hj, k, hk, rfl⟩ := hr
  rw [products_length, products_length, rowOf_length (orthogonalInterval_shape _ _ _) (by omega),
    rowOf_length (orthogonalInterval_shape _ _ _) (by omega),
    rowOf_length (orthogonalInterval_shape _ _ _) (by omega)]
  ring

theorem hexahedron_entry (Dx Dy Dz : Derivation ℚ A A) (x y z : A) (hD : Partials Dx Dy Dz x y z)
    {order derivs a b c dx dy dz : ℕ} (ha : a ≤ order) (hb : b ≤ order) (hc : c ≤ order)
    (hd : dx + dy + dz ≤ derivs) :
    entry (orthogonalHexahedron x y z order derivs) (tetIndex dx dy dz)
        ((a * (order + 1) + b) * (order + 1) + c) =
      some (mixed Dx Dy Dz dx dy dz
        (hjac 0 (2 * x - 1) 1 a * hjac 0 (2 * y - 1) 1 b * hjac 0 (2 * z - 1) 1 c)) := by
  have hrow : (orthogonalHexahedron x y z order derivs)[tetIndex dx dy dz]? =
      some (products (products (rowOf (orthogonalInterval x order derivs) dx)
        (rowOf (orthogonalInterval y order derivs) dy))
        (rowOf (orthogonalInterval z order derivs) dz)) := by
    refine setRows_get (nodup_tet derivs fun i j k => products (products
      (rowOf (orthogonalInterval x order derivs) i) (rowOf (orthogonalInterval y order derivs) j))
      (rowOf (orthogonalInterval z order derivs) k)) ?_ (tetIndex_lt_of hd)
    simp only [List.mem_flatMap, List.mem_map, List.mem_range]
    exact ⟨dx, by omega, dy, by omega, dz, by omega, rfl⟩
  have h1 := rowOf_get (interval_entry Dx x hD.xx (derivs := derivs) (dx := dx) (by omega) ha)
  have h2 := rowOf_get (interval_entry Dy y hD.yy (derivs := derivs) (dx := dy) (by omega) hb)
  have h3 := rowOf_get (interval_entry Dz z hD.zz (derivs := derivs) (dx := dz) (by omega) hc)
  have h4 := products_getElem? h1 h2
  rw [rowOf_length (orthogonalInterval_shape _ _ _) (by omega)] at h4
  have h := products_getElem? h4 h3
  rw [rowOf_length (orthogonalInterval_shape _ _ _) (by omega)] at h
  rw [entry, hrow, Option.bind_some, h]
  simp only [mixed]
  have kx : ∀ D : Derivation ℚ A A, D x = 0 → D (hjac 0 (2 * x - 1) 1 a) = 0 := fun D h =>
    der_hjac D (by simp [h, der_two]) (by simp) _ _
  have ky : ∀ D : Derivation ℚ A A, D y = 0 → D (hjac 0 (2 * y - 1) 1 b) = 0 := fun D h =>
    der_hjac D (by simp [h, der_two]) (by simp) _ _
  have kz : ∀ D : Derivation ℚ A A, D z = 0 → D (Dz^[dz] (hjac 0 (2 * z - 1) 1 c)) = 0 := by
    intro D h
    rw [← intervalTable_closed Dz z hD.zz order derivs c hc dz (by omega)]
    exact der_intervalTable D h order derivs c dz hc (by omega)
  have ky' : ∀ D : Derivation ℚ A A, D y = 0 → D (Dy^[dy] (hjac 0 (2 * y - 1) 1 b)) = 0 := by
    intro D h
    rw [← intervalTable_closed Dy y hD.yy order derivs b hb dy (by omega)]
    exact der_intervalTable D h order derivs b dy hb (by omega)
  have kxy : Dz (hjac 0 (2 * x - 1) 1 a * hjac 0 (2 * y - 1) 1 b) = 0 := by
    rw [Derivation.leibniz, kx Dz hD.zx, ky Dz hD.zy]; simp
  rw [mul_comm (hjac 0 (2 * x - 1) 1 a * _) (hjac 0 (2 * z - 1) 1 c), iter_mul_const Dz kxy,
    mul_comm (Dz^[dz] _) (hjac 0 (2 * x - 1) 1 a * _), iter_mul_const Dy (kz Dy hD.yz),
    iter_mul_const Dx (kz Dx hD.xz), mul_comm (hjac 0 (2 * x - 1) 1 a) (hjac 0 (2 * y - 1) 1 b),
    iter_mul_const Dy (kx Dy hD.yx), mul_comm _ (hjac 0 (2 * x - 1) 1 a),
    iter_mul_const Dx (ky' Dx hD.xy)]

/-- **C29** Hexahedron: every entry of row `d_index(dx, dy, dz)` is the mixed derivative of the entry
of row `0`. -/
theorem orthogonalHexahedron_derivs (Dx Dy Dz : Derivation ℚ A A) (x y z : A)
    (hD : Partials Dx Dy Dz x y z) (order derivs dx dy dz i : ℕ) (hd : dx + dy + dz ≤ derivs)
    (hi : i < (order + 1) ^ 3) :
    ∃ f, entry (orthogonalHexahedron x y z order derivs) 0 i = some f ∧
      entry (orthogonalHexahedron x y z order derivs) (tetIndex dx dy dz) i =
        some (Dx^[dx] (Dy^[dy] (Dz^[dz] f))) := by
  have hc : i % (order + 1) < order + 1 := Nat.mod_lt _ (by omega)
  have hb : i / (order + 1) % (order + 1) < order + 1 := Nat.mod_lt _ (by omega)
  have ha : i / (order + 1) / (order + 1) < order + 1 := by
    rw [Nat.div_lt_iff_lt_mul (by omega), Nat.div_lt_iff_lt_mul (by omega), mul_assoc, ← pow_two,
      ← pow_succ']
    exact hi
  have e : (i / (order + 1) / (order + 1) * (order + 1) + i / (order + 1) % (order + 1)) * (order + 1)
      + i % (order + 1) = i := by rw [Nat.div_add_mod', Nat.div_add_mod']
  rw [← e]
  exact ⟨_, hexahedron_entry (dx := 0) (dy := 0) (dz := 0) Dx Dy Dz x y z hD (by omega) (by omega)
    (by omega) (by omega), hexahedron_entry Dx Dy Dz x y z hD (by omega) (by omega) (by omega) hd⟩

theorem orthogonalPrism_shape (x y z : A) (order derivs : ℕ) :
    Shape (orthogonalPrism x y z order derivs) ((derivs + 1) * (derivs + 2) * (derivs + 3) / 6)
      ((order + 1) * (order + 1) * (order + 2) / 2) := by
  apply setRows_shape
  intro r hr
  simp only [List.mem_flatMap, List.mem_map, List.mem_range] at hr
  obtain ⟨i, hi, j, hj, k, hk, rfl⟩ := hr
  rw [products_length, rowOf_length (orthogonalTriangle_shape _ _ _ _) (triIndex_lt_of (by omega)),
    rowOf_length (orthogonalInterval_shape _ _ _) (by omega)]
  have := two_tri (order + 1)
  rw [show (order + 1) * (order + 2) = 2 * ∑ i ∈ Finset.range (order + 1), (i + 1) by
      rw [this]; ring, Nat.mul_div_cancel_left _ (by norm_num),
    show (order + 1) * (order + 1) * (order + 2) =
      2 * ((∑ i ∈ Finset.range (order + 1), (i + 1)) * (order + 1)) by
      rw [← mul_assoc, this]; ring, Nat.mul_div_cancel_left _ (by norm_num)]

theorem prism_entry (Dx Dy Dz : Derivation ℚ A A) (x y z : A) (hD : Partials Dx Dy Dz x y z)
    {order derivs p q c dx dy dz : ℕ} (hp : p + q ≤ order) (hc : c ≤ order)
    (hd : dx + dy + dz ≤ derivs) :
    entry (orthogonalPrism x y z order derivs) (tetIndex dx dy dz)
        (triIndex q p * (order + 1) + c) =
      some (mixed Dx Dy Dz dx dy dz (triMember x y q p * hjac 0 (2 * z - 1) 1 c)) := by
  have hrow : (orthogonalPrism x y z order derivs)[tetIndex dx dy dz]? =
      some (products (rowOf (orthogonalTriangle x y order derivs) (triIndex dx dy))
        (rowOf (orthogonalInterval z order derivs) dz)) := by
    refine setRows_get (nodup_tet derivs fun i j k => products
      (rowOf (orthogonalTriangle x y order derivs) (triIndex i j))
      (rowOf (orthogonalInterval z order derivs) k)) ?_ (tetIndex_lt_of hd)
    simp only [List.mem_flatMap, List.mem_map, List.mem_range]
    exact ⟨dx, by omega, dy, by omega, dz, by omega, rfl⟩
  have h1 := rowOf_get (triangle_entry Dx Dy x y hD.xx hD.xy hD.yx hD.yy (derivs := derivs)
    (dx := dx) (dy := dy) hp (by omega))
  have h3 := rowOf_get (interval_entry Dz z hD.zz (derivs := derivs) (dx := dz) (by omega) hc)
  have h := products_getElem? h1 h3
  rw [rowOf_length (orthogonalInterval_shape _ _ _) (by omega)] at h
  rw [entry, hrow, Option.bind_some, h]
  simp only [mixed]
  have kz : ∀ D : Derivation ℚ A A, D z = 0 → D (Dz^[dz] (hjac 0 (2 * z - 1) 1 c)) = 0 := by
    intro D h
    rw [← intervalTable_closed Dz z hD.zz order derivs c hc dz (by omega)]
    exact der_intervalTable D h order derivs c dz hc (by omega)
  have kxy : Dz (triMember x y q p) = 0 := by
    rw [triMember, Derivation.leibniz, der_hjac Dz (by simp [hD.zy, der_two]) (by simp),
      der_hjac Dz (by simp [hD.zx, hD.zy, der_two]) (by simp [hD.zy])]
    simp
  rw [mul_comm (triMember x y q p) (hjac 0 (2 * z - 1) 1 c), iter_mul_const Dz kxy,
    mul_comm (Dz^[dz] _) (triMember x y q p), iter_mul_const Dy (kz Dy hD.yz),
    iter_mul_const Dx (kz Dx hD.xz)]

/-- **C29** Prism: every entry of row `d_index(dx, dy, dz)` is the mixed derivative of the entry of
row `0`. -/
theorem orthogonalPrism_derivs (Dx Dy Dz : Derivation ℚ A A) (x y z : A)
    (hD : Partials Dx Dy Dz x y z) (order derivs dx dy dz i : ℕ) (hd : dx + dy + dz ≤ derivs)
    (hi : i < (order + 1) * (order + 1) * (order + 2) / 2) :
    ∃ f, entry (orthogonalPrism x y z order derivs) 0 i = some f ∧
      entry (orthogonalPrism x y z order derivs) (tetIndex dx dy dz) i =
        some (Dx^[dx] (Dy^[dy] (Dz^[dz] f))) := by
  have hc : i % (order + 1) < order + 1 := Nat.mod_lt _ (by omega)
  have ha : i / (order + 1) < (order + 1) * (order + 2) / 2 := by
    rw [Nat.div_lt_iff_lt_mul (by omega)]
    have := two_tri (order + 1)
    rw [show (order + 1) * (order + 2) = 2 * ∑ i ∈ Finset.range (order + 1), (i + 1) by
      rw [this]; ring, Nat.mul_div_cancel_left _ (by norm_num)]
    rw [show (order + 1) * (order + 1) * (order + 2) =
      2 * ((∑ i ∈ Finset.range (order + 1), (i + 1)) * (order + 1)) by
      rw [← mul_assoc, this]; ring, Nat.mul_div_cancel_left _ (by norm_num)] at hi
    exact hi
  have e : i / (order + 1) * (order + 1) + i % (order + 1) = i := Nat.div_add_mod' i (order + 1)
  obtain ⟨⟨q, p⟩, hqp, hq⟩ := (triIndex_bijOn order).surjOn ha
  have hqp : q + p ≤ order := hqp
  have hq : triIndex q p = i / (order + 1) := hq
  rw [← e, ← hq]
  exact ⟨_, prism_entry (dx := 0) (dy := 0) (dz := 0) Dx Dy Dz x y z hD (by omega) (by omega)
    (by omega), prism_entry Dx Dy Dz x y z hD (by omega) (by omega) hd⟩

end Verif.Orthogonal
