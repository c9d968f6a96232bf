import Verif.Functions.Model
import Mathlib.Logic.Function.Basic
import Mathlib.Data.List.Range
import Mathlib.Data.List.TakeDrop

/-!
# Iterating over vectors (C45)
-/

namespace Verif.Functions

/-- The loop body leaves the iteration of object `o` alone. -/
def Leaves (o : ℕ) (body : (ℕ → ℕ) → (ℕ → ℕ)) : Prop := ∀ st, body st o = st o

theorem forLoop_visits (lens : ℕ → ℕ) (o : ℕ) (body : (ℕ → ℕ) → (ℕ → ℕ)) (hb : Leaves o body) (fuel : ℕ)
    (st : ℕ → ℕ) (hf : lens o - st o ≤ fuel) (h : st o ≤ lens o) :
    (forLoop lens o body fuel st).1 = (List.range (lens o)).drop (st o) := by
  induction fuel generalizing st with
  | zero =>
    rw [forLoop, List.drop_eq_nil_of_le]
    rw [List.length_range]
    omega
  | succ fuel ih =>
    rw [forLoop]
    by_cases hlt : st o < lens o
    · have e : iterStep lens st (o, .next) = (Function.update st o (st o + 1), some (st o)) := by
        simp [iterStep, hlt]
      rw [e]
      have hs : body (Function.update st o (st o + 1)) o = st o + 1 := by rw [hb]; simp
      simp only
      rw [ih _ (by rw [hs]; omega) (by rw [hs]; omega), hs]
      rw [List.drop_eq_getElem_cons (l := List.range (lens o)) (i := st o) (by simpa using hlt)]
      simp
    · have e : iterStep lens st (o, .next) = (st, none) := by simp [iterStep, hlt]
      rw [e]
      have : st o = lens o := by omega
      simp [this]

/-- **C45** A loop whose body does not iterate over the same object visits each component once, in
order. -/
theorem forStmt_visits_partial (lens : ℕ → ℕ) (o : ℕ) (body : (ℕ → ℕ) → (ℕ → ℕ)) (hb : Leaves o body)
    (fuel : ℕ) (hf : lens o ≤ fuel) (st : ℕ → ℕ) :
    (forStmt lens o body fuel st).1 = List.range (lens o) := by
  unfold forStmt
  have h0 : (iterStep lens st (o, .iter)).1 o = 0 := by simp [iterStep]
  rw [forLoop_visits lens o body hb fuel _ (by omega) (by omega), h0, List.drop_zero]

/-- A loop over another object leaves the iteration of an object alone. -/
theorem forLoop_leaves (lens : ℕ → ℕ) (o o' : ℕ) (h : o' ≠ o) (body : (ℕ → ℕ) → (ℕ → ℕ)) (hb : Leaves o body)
    (fuel : ℕ) (st : ℕ → ℕ) : (forLoop lens o' body fuel st).2 o = st o := by
  induction fuel generalizing st with
  | zero => rfl
  | succ fuel ih =>
    rw [forLoop]
    by_cases hlt : st o' < lens o'
    · have e : iterStep lens st (o', .next) = (Function.update st o' (st o' + 1), some (st o')) := by
        simp [iterStep, hlt]
      rw [e]
      simp only
      rw [ih, hb, Function.update_of_ne h.symm]
    · have e : iterStep lens st (o', .next) = (st, none) := by simp [iterStep, hlt]
      rw [e]

/-- **C45** Nested loops over different objects visit each component. -/
theorem nested_visits (lens : ℕ → ℕ) (o o' : ℕ) (h : o' ≠ o) (fuel fuel' : ℕ) (hf : lens o ≤ fuel)
    (st : ℕ → ℕ) :
    (forStmt lens o (fun st => (forStmt lens o' id fuel' st).2) fuel st).1 = List.range (lens o) := by
  refine forStmt_visits_partial lens o _ (fun st => ?_) fuel hf st
  unfold forStmt
  rw [forLoop_leaves lens o o' h id (fun _ => rfl)]
  simp [iterStep, Function.update_of_ne h.symm]

/-- At the end of a loop the counter of the object is at the end. -/
theorem forLoop_end (lens : ℕ → ℕ) (o : ℕ) (fuel : ℕ) (st : ℕ → ℕ) (hf : lens o - st o < fuel)
    (h : st o ≤ lens o) : (forLoop lens o id fuel st).2 o = lens o := by
  induction fuel generalizing st with
  | zero => omega
  | succ fuel ih =>
    rw [forLoop]
    by_cases hlt : st o < lens o
    · have e : iterStep lens st (o, .next) = (Function.update st o (st o + 1), some (st o)) := by
        simp [iterStep, hlt]
      rw [e]
      have hs : (Function.update st o (st o + 1)) o = st o + 1 := by simp
      exact ih _ (by rw [id, hs]; omega) (by rw [id, hs]; omega)
    · have e : iterStep lens st (o, .next) = (st, none) := by simp [iterStep, hlt]
      rw [e]
      change st o = lens o
      omega

/-- **C45** is false for nested loops over one object: the outer loop visits the first component only,
however many components there are. -/
theorem nested_same_visits_first (lens : ℕ → ℕ) (o : ℕ) (h : 0 < lens o) (fuel : ℕ) (hf : lens o < fuel)
    (st : ℕ → ℕ) :
    (forStmt lens o (fun st => (forStmt lens o id fuel st).2) fuel st).1 = [0] := by
  obtain ⟨k, rfl⟩ : ∃ k, fuel = k + 1 := ⟨fuel - 1, by omega⟩
  conv_lhs => rw [forStmt]
  have h0 : (iterStep lens st (o, .iter)).1 o = 0 := by simp [iterStep]
  set st0 := (iterStep lens st (o, .iter)).1
  conv_lhs => rw [forLoop]
  have e : iterStep lens st0 (o, .next) = (Function.update st0 o 1, some 0) := by
    simp [iterStep, h0, h]
  rw [e]
  simp only [List.cons.injEq, true_and]
  have hend : (forStmt lens o id (k + 1) (Function.update st0 o 1)).2 o = lens o := by
    unfold forStmt
    have : (iterStep lens (Function.update st0 o 1) (o, .iter)).1 o = 0 := by simp [iterStep]
    exact forLoop_end lens o _ _ (by omega) (by omega)
  obtain ⟨k, rfl⟩ : ∃ j, k = j + 1 := ⟨k - 1, by omega⟩
  rw [forLoop]
  have e2 : iterStep lens (forStmt lens o id (k + 1 + 1) (Function.update st0 o 1)).2 (o, .next) =
      ((forStmt lens o id (k + 1 + 1) (Function.update st0 o 1)).2, none) := by
    simp [iterStep, hend]
  rw [e2]

/-- **C45** is false: a nested loop over a vector of two or more components does not visit them all. -/
theorem nested_same_misses (lens : ℕ → ℕ) (o : ℕ) (h : 2 ≤ lens o) (fuel : ℕ) (hf : lens o < fuel)
    (st : ℕ → ℕ) :
    (forStmt lens o (fun st => (forStmt lens o id fuel st).2) fuel st).1 ≠ List.range (lens o) := by
  rw [nested_same_visits_first lens o (by omega) fuel hf st]
  intro he
  have := congrArg List.length he
  simp at this
  omega

/-- Vectors 0 and 1 have three and two components. -/
example : (forStmt (fun o => if o = 0 then 3 else 2) 0 id 10 fun _ => 7).1 = [0, 1, 2] ∧
    (forStmt (fun o => if o = 0 then 3 else 2) 0
      (fun st => (forStmt (fun o => if o = 0 then 3 else 2) 0 id 10 st).2) 10 fun _ => 7).1 = [0] := by
  decide

end Verif.Functions
