import Verif.Families.Model
import Verif.Families.QSpace
/-!
# Model of the vector-valued elements on quadrilaterals and hexahedra

`VectorQ`, `Nedelec` and `RaviartThomas` in `symfem/elements/q.py`, on the default reference cells; any other reference is
an error in the code.
-/

namespace Verif.Families
open Verif.References Verif.Moments Verif.Functionals Verif.Elements Verif.FiniteElement Verif.Polysets Verif.Orthogonal
open MvPolynomial

/-- The class `Q` (symfem/elements/q.py:36-98, 155). -/
noncomputable def qClass : ElementClass Fun where
  minOrder := 0
  create t k kw := scalarBasis (qElement (variantOf kw) t (refVertex t) k.toNat)

/-- `RaviartThomas(reference, order, variant)` (symfem/elements/q.py:301-326), given the classes of the sub-elements. -/
noncomputable def rtqWith (classes : String → ElementClass Fun) (variant : String) (c : Cell) (k : ℕ) :
    Option (Element ℝ (Field c.tdim)) :=
  momentElement classes c (some (quolySetVector c.tdim c.tdim ((k : ℤ) - 1) ++ hdivQuolySet c.tdim k))
    { facets := some (.single [.cls "NormalIntegralMoment", .cls "Q", .int ((k : ℤ) - 1), .dict [("variant", variant)]])
      cells := some (.single [.cls "IntegralMoment", .cls "Nedelec", .int ((k : ℤ) - 1), .str "contravariant",
        .dict [("variant", variant)]]) }

/-- `Nedelec(reference, order, variant)` (symfem/elements/q.py:236-262), given the classes of the sub-elements. -/
noncomputable def ncqWith (classes : String → ElementClass Fun) (variant : String) (c : Cell) (k : ℕ) :
    Option (Element ℝ (Field c.tdim)) :=
  momentElement classes c (some (quolySetVector c.tdim c.tdim ((k : ℤ) - 1) ++ hcurlQuolySet c.tdim k))
    { edges := some (.single [.cls "TangentIntegralMoment", .cls "Q", .int ((k : ℤ) - 1), .dict [("variant", variant)]])
      faces := some (.single [.cls "IntegralMoment", .cls "RaviartThomas", .int ((k : ℤ) - 1), .str "covariant",
        .dict [("variant", variant)]])
      volumes := some (.single [.cls "IntegralMoment", .cls "RaviartThomas", .int ((k : ℤ) - 1), .str "covariant",
        .dict [("variant", variant)]]) }

/-- The classes `Q`, `RaviartThomas` and `Nedelec`, where at most `n` elements are nested in each other.  Each element uses
elements of the order below its own, so an element of order `k` needs only `k` levels; the model has no element when the
levels run out. -/
noncomputable def qClasses : ℕ → String → ElementClass Fun
  | 0, name => if name = "Q" then qClass else ⟨1, fun _ _ _ => none⟩
  | n + 1, name =>
    if name = "Q" then qClass
    else if name = "RaviartThomas" then ⟨1, fun t k kw => vectorBasis (rtqWith (qClasses n) (variantOf kw) t k.toNat)⟩
    else if name = "Nedelec" then ⟨1, fun t k kw => vectorBasis (ncqWith (qClasses n) (variantOf kw) t k.toNat)⟩
    else noClass

/-- `RaviartThomas(reference, order, variant)` (symfem/elements/q.py:301-326). -/
noncomputable def rtqElement (variant : String) (c : Cell) (k : ℕ) : Option (Element ℝ (Field c.tdim)) :=
  rtqWith (qClasses k) variant c k

/-- `Nedelec(reference, order, variant)` (symfem/elements/q.py:236-262). -/
noncomputable def ncqElement (variant : String) (c : Cell) (k : ℕ) : Option (Element ℝ (Field c.tdim)) :=
  ncqWith (qClasses k) variant c k

/-- `VectorQ(reference, order, variant)` (symfem/elements/q.py:165-201) for the variants with point evaluations. -/
noncomputable def vectorQElement (variant : String) (c : Cell) (k : ℕ) : Option (Element ℝ (Field c.tdim)) :=
  (qDofs variant c (refVertex c) k).bind fun dofs =>
    ciarlet ((quolySetVector c.tdim c.tdim k).map (denoteVec ℝ c.tdim))
      (dofs.flatMap fun p => (List.finRange c.tdim).map fun i => dotDof p fun j => if i = j then 1 else 0)

end Verif.Families
