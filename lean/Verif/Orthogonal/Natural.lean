import Verif.Orthogonal.PropsDerivs

/-!
# Substituting for the variables in a table (C75)

Asking for a table in other variables gives the table in the default variables with the variables
replaced.
-/

set_option linter.unusedSectionVars false
set_option linter.unusedSimpArgs false

namespace Verif.Orthogonal

variable {A B : Type*} [CommRing A] [Algebra ℚ A] [CommRing B] [Algebra ℚ B] (φ : A →ₐ[ℚ] B)

theorem map_addIf (c : Prop) [Decidable c] (a : A) : φ (addIf c a) = addIf c (φ a) := by
  unfold addIf; split_ifs <;> simp

theorem map_fill {ι : Type*} (L : List ι) (f : ι → Step A) (g : ι → Step B)
    (hrow : ∀ s, (f s).row = (g s).row) (hcol : ∀ s, (f s).col = (g s).col)
    (hval : ∀ s T, φ ((f s).val T) = (g s).val fun d i => φ (T d i)) (T : ℕ → ℕ → A) (d i : ℕ) :
    φ (fill T (L.map f) d i) = fill (fun d i => φ (T d i)) (L.map g) d i := by
  induction L generalizing T with
  | nil => rfl
  | cons s L ih =>
    simp only [fill, List.map_cons, List.foldl_cons] at ih ⊢
    have e : (fun d i => φ (Step.run T (f s) d i)) = Step.run (fun d i => φ (T d i)) (g s) := by
      funext d i
      simp only [Step.run, hrow, hcol]
      split_ifs with h
      · exact hval s T
      · rfl
    rw [ih, e]

theorem map_intervalTable (x : A) (order derivs d i : ℕ) :
    φ (intervalTable x order derivs d i) = intervalTable (φ x) order derivs d i := by
  unfold intervalTable
  rw [map_fill φ _ _ (fun s => ⟨s.1, s.2, fun T => intervalVal (φ x) T s.1 s.2⟩)
    (fun _ => rfl) (fun _ => rfl) (fun s T => ?_)]
  · congr 1
    funext d i
    simp only [intervalInit]
    split_ifs <;> simp
  · simp only [intervalVal, map_add, map_sub, map_smul, map_mul, map_addIf, map_ofNat, map_one]

theorem map_triTable (x y : A) (order derivs d i : ℕ) :
    φ (triTable x y order derivs d i) = triTable (φ x) (φ y) order derivs d i := by
  unfold triTable
  rw [map_fill φ _ _ (triStep (φ x) (φ y)) (fun _ => rfl) (fun _ => rfl) (fun s T => ?_)]
  · simp
  · simp only [triStep, triVal0, triVal1, triRead, apply_ite φ, map_add, map_sub, map_smul, map_mul,
      map_addIf, map_ofNat, map_one, map_zero, map_pow, AlgHom.commutes]

theorem map_tetTable (x y z : A) (order derivs d i : ℕ) :
    φ (tetTable x y z order derivs d i) = tetTable (φ x) (φ y) (φ z) order derivs d i := by
  unfold tetTable
  rw [map_fill φ _ _ (tetStep (φ x) (φ y) (φ z)) (fun _ => rfl) (fun _ => rfl) (fun s T => ?_)]
  · simp
  · simp only [tetStep, tetVal0, tetVal1, tetVal2, tetRead, apply_ite φ, map_add, map_sub, map_smul,
      map_mul, map_addIf, map_ofNat, map_one, map_zero, map_pow, AlgHom.commutes]

theorem map_pyrTable (x y z w : A) (order derivs d i : ℕ) :
    φ (pyrTable x y z w order derivs d i) = pyrTable (φ x) (φ y) (φ z) (φ w) order derivs d i := by
  unfold pyrTable
  rw [map_fill φ _ _ (pyrStep (φ x) (φ y) (φ z) (φ w) order) (fun _ => rfl) (fun _ => rfl)
    (fun s T => ?_)]
  · simp
  · simp only [pyrStep, pyrVal0, pyrVal1, pyrVal2, pyrVal3, pyrRead, apply_ite φ, map_add, map_sub,
      map_smul, map_mul, map_addIf, map_ofNat, map_one, map_zero, map_pow, AlgHom.commutes,
      map_list_sum, List.map_map, Function.comp_def]

theorem map_listing (D N : ℕ) (T : ℕ → ℕ → A) :
    (listing D N T).map (List.map φ) = listing D N fun d i => φ (T d i) := by
  simp [listing, Function.comp_def]

theorem map_products (l l' : List A) : (products l l').map φ = products (l.map φ) (l'.map φ) := by
  simp [products, List.map_flatMap, List.flatMap_map, Function.comp_def]

theorem map_rowOf (l : List (List A)) (i : ℕ) :
    (rowOf l i).map φ = rowOf (l.map (List.map φ)) i := by
  unfold rowOf
  rw [List.getElem?_map]
  cases l[i]? <;> simp

theorem map_setRows (D N : ℕ) (rows : List (ℕ × List A)) :
    (setRows D N rows).map (List.map φ) = setRows D N (rows.map fun r => (r.1, r.2.map φ)) := by
  unfold setRows
  have : ∀ t : List (List A), (rows.foldl (fun t r => t.set r.1 r.2) t).map (List.map φ) =
      (rows.map fun r => (r.1, r.2.map φ)).foldl (fun t r => t.set r.1 r.2)
        (t.map (List.map φ)) := by
    induction rows with
    | nil => exact fun t => rfl
    | cons r l ih => intro t; rw [List.foldl_cons, ih, List.map_cons, List.foldl_cons, List.map_set]
  rw [this]
  simp

/-- **C75** Interval: the table in the variable `φ x` is the table in `x` with `φ` applied. -/
theorem orthogonalInterval_map (x : A) (order derivs : ℕ) :
    orthogonalInterval (φ x) order derivs =
      (orthogonalInterval x order derivs).map (List.map φ) := by
  simp only [orthogonalInterval, map_listing, map_intervalTable]

/-- **C75** Triangle. -/
theorem orthogonalTriangle_map (x y : A) (order derivs : ℕ) :
    orthogonalTriangle (φ x) (φ y) order derivs =
      (orthogonalTriangle x y order derivs).map (List.map φ) := by
  simp only [orthogonalTriangle, map_listing, map_triTable]

/-- **C75** Tetrahedron. -/
theorem orthogonalTetrahedron_map (x y z : A) (order derivs : ℕ) :
    orthogonalTetrahedron (φ x) (φ y) (φ z) order derivs =
      (orthogonalTetrahedron x y z order derivs).map (List.map φ) := by
  simp only [orthogonalTetrahedron, map_listing, map_tetTable]

/-- **C75** Pyramid. -/
theorem orthogonalPyramid_map (x y z w : A) (order derivs : ℕ) :
    orthogonalPyramid (φ x) (φ y) (φ z) (φ w) order derivs =
      (orthogonalPyramid x y z w order derivs).map (List.map φ) := by
  simp only [orthogonalPyramid, map_listing, map_pyrTable]

/-- **C75** Quadrilateral. -/
theorem orthogonalQuadrilateral_map (x y : A) (order derivs : ℕ) :
    orthogonalQuadrilateral (φ x) (φ y) order derivs =
      (orthogonalQuadrilateral x y order derivs).map (List.map φ) := by
  simp only [orthogonalQuadrilateral, map_setRows, List.map_flatMap, List.map_map,
    Function.comp_def, map_products, map_rowOf, orthogonalInterval_map]

/-- **C75** Hexahedron. -/
theorem orthogonalHexahedron_map (x y z : A) (order derivs : ℕ) :
    orthogonalHexahedron (φ x) (φ y) (φ z) order derivs =
      (orthogonalHexahedron x y z order derivs).map (List.map φ) := by
  simp only [orthogonalHexahedron, map_setRows, List.map_flatMap, List.map_map,
    Function.comp_def, map_products, map_rowOf, orthogonalInterval_map]

/-- **C75** Prism. -/
theorem orthogonalPrism_map (x y z : A) (order derivs : ℕ) :
    orthogonalPrism (φ x) (φ y) (φ z) order derivs =
      (orthogonalPrism x y z order derivs).map (List.map φ) := by
  simp only [orthogonalPrism, map_setRows, List.map_flatMap, List.map_map,
    Function.comp_def, map_products, map_rowOf, orthogonalInterval_map, orthogonalTriangle_map]

theorem entry_map (l : List (List A)) (d i : ℕ) :
    entry (l.map (List.map φ)) d i = (entry l d i).map φ := by
  unfold entry
  rw [List.getElem?_map]
  cases l[d]? with
  | none => rfl
  | some r => simp [List.getElem?_map]

end Verif.Orthogonal
