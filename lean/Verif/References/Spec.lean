import Verif.References.Model
/-!
# What a consistent table is

Stated with the incidence data only.
-/

namespace Verif.References

/-- The entities of one dimension list distinct existing vertices in ascending order, and no entity is
listed twice. -/
def GoodEntities (nverts : Nat) (ents : List (List Nat)) : Prop :=
  ents.Nodup ∧ ∀ e ∈ ents, e.Pairwise (· < ·) ∧ ∀ i ∈ e, i < nverts

/-- Sub-entity `e` of `c` has type `t`: it has the right number of vertices, and every entity of `t`
of dimension 1 and 2, with its vertices numbered as in `c`, is an entity of `c`. -/
def GoodSub (c : Cell) (t : Cell) (e : List Nat) : Prop :=
  e.length = t.nverts ∧
  (∀ f ∈ t.edges, f.map (fun i => e.getD i 0) ∈ c.edges) ∧
  (∀ f ∈ t.faces, f.map (fun i => e.getD i 0) ∈ c.faces)

/-- The number of facets in which a ridge (entity of codimension two) lies. -/
def facetsAround (facets : List (List Nat)) (ridge : List Nat) : Nat :=
  facets.countP fun f => ridge.all fun i => f.contains i

end Verif.References
