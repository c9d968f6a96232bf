import Verif.Families.BoxDiv
/-!
# Model of scalar elements with integral moments

`symfem/elements/serendipity.py` on the default reference cells.
-/

namespace Verif.Scalar
open Verif.References Verif.Moments Verif.Functionals Verif.Elements Verif.FiniteElement Verif.Polysets Verif.Orthogonal
open Verif.Families
open MvPolynomial

/-- The value of an `IntegralMoment` of a scalar function (symfem/functionals.py:1280-1307, symfem/functions.py:782-816):
the integral over the domain of the product with the function of the moment, which is in terms of the parameters. -/
noncomputable def moment1Value (D : Domain) (J : ℝ) (w p : MvPolynomial ℕ ℝ) : ℝ :=
  cellInt D.cell fun z => eval (D.param z) p * eval z w * J

/-- The value as a linear map of the function. -/
noncomputable def moment1Map (D : Domain) (J : ℝ) (w : MvPolynomial ℕ ℝ) : MvPolynomial ℕ ℝ →ₗ[ℝ] ℝ where
  toFun := moment1Value D J w
  map_add' p q := by
    have hc : ∀ p, Continuous fun z : ℕ → ℝ => eval (D.param z) p * eval z w * J := fun p =>
      (((MvPolynomial.continuous_eval p).comp (continuous_param D)).mul (MvPolynomial.continuous_eval w)).mul continuous_const
    unfold moment1Value
    rw [← cellInt_add _ (hc p) (hc q)]
    congr 1
    funext z
    rw [map_add]
    ring
  map_smul' a p := by
    unfold moment1Value
    rw [RingHom.id_apply, smul_eq_mul, ← cellInt_const_mul]
    congr 1
    funext z
    rw [smul_eval]
    ring

/-- `IntegralMoment(reference, f, d, (dim, i), mapping=mapping)` for scalar functions (symfem/moments.py:101-111,
symfem/functionals.py:1225-1275).  The other kinds of moments are not used by scalar elements. -/
noncomputable def moment1Dof (c : Cell) (m : MomentDof Fun) : Option (Dof ℝ (MvPolynomial ℕ ℝ)) :=
  if m.moment = "IntegralMoment" then
    match m.sub with
    | .scalar w => (jacobian (entityDomain c m.entity).cell (entityDomain c m.entity).g (entityDomain c m.entity).v).map fun J =>
        ⟨11, m.entity, some (m.mapping.getD "identity"), moment1Map (entityDomain c m.entity) J w⟩
    | .vector _ _ => none
  else none

/-- `PointEvaluation(reference, p, entity=(0, v_n))` for all vertices (symfem/elements/serendipity.py:48-49). -/
noncomputable def vertexDofs (c : Cell) : List PointDof :=
  (List.range (refVerts (K := ℝ) c).length).map fun i => ⟨refVertex c i, (0, i)⟩

/-- `Serendipity(reference, order, variant)` (symfem/elements/serendipity.py:33-60). -/
noncomputable def serendipityElement (variant : String) (c : Cell) (k : ℕ) : Option (Element ℝ (MvPolynomial ℕ ℝ)) :=
  (polySet c.tdim k).bind fun poly =>
    (makeIntegralMomentDofs (fun _ => dpcClass) c
      { edges := some (.single [.cls "IntegralMoment", .cls "DPC", .int ((k : ℤ) - 2), .dict [("variant", variant)]])
        faces := some (.single [.cls "IntegralMoment", .cls "DPC", .int ((k : ℤ) - 4), .dict [("variant", variant)]])
        volumes := some (.single [.cls "IntegralMoment", .cls "DPC", .int ((k : ℤ) - 6), .dict [("variant", variant)]]) }).bind
      fun ms => (ms.mapM (moment1Dof c)).bind fun dofs =>
        ciarlet ((poly ++ serSet c.tdim k).map (denoteMono ℝ)) ((vertexDofs c).map PointDof.functional ++ dofs)

end Verif.Scalar
