import Verif.Orthogonal.PropsLobatto
import Mathlib.Algebra.Polynomial.Sequence
import Mathlib.LinearAlgebra.Matrix.NonsingularInverse

/-!
# The L2 dual of the Lobatto polynomials (C77)
-/

set_option linter.unusedSectionVars false
set_option linter.unusedSimpArgs false

namespace Verif.Orthogonal

open Verif.References Polynomial

/-- The function of the first coordinate given by a polynomial. -/
noncomputable def uni (P : ℝ[X]) : Fn := fun p => P.eval (p 0)

theorem uni_continuous (P : ℝ[X]) : Continuous (uni P) :=
  P.continuous.comp (continuous_apply 0)

/-- Member `k` of the Lobatto polynomials, as a polynomial. -/
noncomputable def lobPoly : ℕ → ℝ[X]
  | 0 => 1
  | 1 => X
  | k + 2 => bubblePoly k

theorem lobPoly_degree (k : ℕ) : (lobPoly k).degree = k := by
  match k with
  | 0 => simp [lobPoly]
  | 1 => simp [lobPoly]
  | k + 2 => exact bubblePoly_degree k

theorem jac_zero_zero : jac 0 0 = 1 := by
  simp [jac, hjac]

/-- The Lobatto polynomials on the interval. -/
theorem lobattoInterval_eq (order : ℕ) (h : 0 < order) :
    lobattoInterval order = (List.range (order + 1)).map fun k : ℕ => uni (lobPoly k) := by
  apply List.ext_getElem?
  intro k
  by_cases hk : k < order + 1
  · rw [List.getElem?_map, List.getElem?_range hk]
    match k with
    | 0 =>
      unfold lobattoInterval
      simp only [List.getElem?_cons_zero, Option.map_some, Option.some.injEq]
      funext p
      simp [uni, lobPoly]
    | 1 =>
      rw [lobattoInterval_get order 0 hk]
      simp only [Option.map_some, Option.some.injEq]
      funext p
      simp [uni, lobPoly, jac_zero_zero]
    | k + 2 =>
      have := lobatto_bubble order k (by omega)
      rw [List.getElem?_drop, show 2 + k = k + 2 by omega] at this
      rw [this]
      simp only [Option.map_some, Option.some.injEq]
      funext p
      simp [uni, lobPoly, bubblePoly]
  · rw [List.getElem?_eq_none, List.getElem?_eq_none]
    · simp; omega
    · rw [lobattoInterval_length order h]; omega

/-- Polynomials of degrees `0, …, n` have an invertible Gram matrix on the interval. -/
theorem gram_isUnit (S : ℕ → ℝ[X]) (hS : ∀ k, (S k).degree = k) (l : List Fn) (n : ℕ)
    (hl : l = (List.range n).map fun k : ℕ => uni (S k)) : IsUnit (gram .interval l).det := by
  rw [isUnit_iff_ne_zero]
  intro h0
  obtain ⟨v, hv, hGv⟩ := Matrix.exists_mulVec_eq_zero_iff.2 h0
  have hlen : l.length = n := by simp [hl]
  have hget : ∀ i : Fin l.length, l[i] = uni (S i) := by
    intro i
    subst hl
    simp
  -- the combination has zero norm
  set P : ℝ[X] := ∑ i : Fin l.length, C (v i) * S i with hP
  have hint : ∫ t in (0 : ℝ)..1, P.eval t ^ 2 = 0 := by
    have h1 : cellInt .interval (fun p => ∑ i : Fin l.length, ∑ j : Fin l.length,
        (v i * v j) * (l[i] p * l[j] p)) = 0 := by
      have hc : ∀ i : Fin l.length, Continuous (l[i]) := fun i => by
        rw [hget]; exact uni_continuous _
      rw [cellInt_sum _ Finset.univ (fun i p => ∑ j : Fin l.length, (v i * v j) * (l[i] p * l[j] p))
        fun i _ => continuous_finsetSum _ fun j _ => ((hc i).mul (hc j)).const_mul _]
      have : ∀ i : Fin l.length, cellInt .interval (fun p => ∑ j : Fin l.length,
          (v i * v j) * (l[i] p * l[j] p)) = 0 := by
        intro i
        rw [cellInt_sum _ Finset.univ (fun j p => (v i * v j) * (l[i] p * l[j] p))
          fun j _ => ((hc i).mul (hc j)).const_mul _]
        simp_rw [cellInt_const_mul]
        have := congrFun hGv i
        rw [Matrix.mulVec, dotProduct, Pi.zero_apply] at this
        have e : ∀ j, v i * v j * cellInt .interval (fun p => l[i] p * l[j] p) =
            v i * (gram .interval l i j * v j) := by
          intro j; rw [gram, Matrix.of_apply]; ring
        simp_rw [e, ← Finset.mul_sum, this, mul_zero]
      exact Finset.sum_eq_zero fun i _ => this i
    rw [cellInt_interval] at h1
    refine Eq.trans ?_ h1
    refine intervalIntegral.integral_congr fun t _ => ?_
    simp only [hget, uni, Function.update_self, hP, eval_finsetSum, eval_mul, eval_C, pow_two,
      Finset.sum_mul_sum]
    exact Finset.sum_congr rfl fun i _ => Finset.sum_congr rfl fun j _ => by ring
  have hzero : ∀ t ∈ Set.Ioo (0 : ℝ) 1, P.eval t = 0 := by
    intro t ht
    by_contra hne
    have hpos : 0 < ∫ t in (0 : ℝ)..1, P.eval t ^ 2 :=
      intervalIntegral.integral_pos (by norm_num)
        (P.continuous.pow 2).continuousOn (fun s _ => sq_nonneg _)
        ⟨t, ⟨ht.1.le, ht.2.le⟩, by positivity⟩
    exact hpos.ne' hint
  have hP0 : P = 0 := by
    apply Polynomial.eq_zero_of_infinite_isRoot
    apply Set.Infinite.mono (s := Set.Ioo (0 : ℝ) 1)
    · intro t ht; exact hzero t ht
    · exact Set.Ioo_infinite (by norm_num)
  let S' : Polynomial.Sequence ℝ := ⟨S, hS⟩
  have hli := S'.linearIndependent
  have hli' : LinearIndependent ℝ fun i : Fin l.length => S i :=
    hli.comp (fun i : Fin l.length => (i : ℕ)) Fin.val_injective
  rw [Fintype.linearIndependent_iff] at hli'
  apply hv
  funext i
  refine hli' v ?_ i
  rw [← hP0, hP]
  exact Finset.sum_congr rfl fun i _ => by rw [smul_eq_C_mul]

/-! ### Products of bi-orthogonal families -/

/-- The lists are bi-orthogonal for a pairing. -/
def Biorth (I : Fn → ℝ) (D L : List Fn) : Prop :=
  D.length = L.length ∧ ∀ (i j : ℕ) (f g : Fn), D[i]? = some f → L[j]? = some g →
    I (f * g) = if i = j then 1 else 0

theorem Biorth.drop {I : Fn → ℝ} {D L : List Fn} (h : Biorth I D L) (n : ℕ) :
    Biorth I (D.drop n) (L.drop n) := by
  refine ⟨by simp [h.1], fun i j f g hf hg => ?_⟩
  rw [List.getElem?_drop] at hf hg
  rw [h.2 _ _ _ _ hf hg]
  simp

theorem products_get_inv {l l' : List Fn} {k : ℕ} {f : Fn} (h : (products l l')[k]? = some f) :
    ∃ a b x y, k = a * l'.length + b ∧ b < l'.length ∧ l[a]? = some x ∧ l'[b]? = some y ∧ f = x * y := by
  have hk := (List.getElem?_eq_some_iff.1 h).1
  rw [products_length] at hk
  have hpos : 0 < l'.length := by
    rcases Nat.eq_zero_or_pos l'.length with h0 | h0
    · rw [h0] at hk; omega
    · exact h0
  have ha : k / l'.length < l.length := Nat.div_lt_of_lt_mul (by rwa [mul_comm])
  have hb : k % l'.length < l'.length := Nat.mod_lt _ hpos
  have hdm : k = k / l'.length * l'.length + k % l'.length := by
    rw [mul_comm]; exact (Nat.div_add_mod _ _).symm
  refine ⟨k / l'.length, k % l'.length, l[k / l'.length], l'[k % l'.length], hdm, hb,
    List.getElem?_eq_getElem ha, List.getElem?_eq_getElem hb, ?_⟩
  have := products_getElem? (List.getElem?_eq_getElem ha) (List.getElem?_eq_getElem hb)
  rw [← hdm, h] at this
  exact Option.some.inj this

theorem Biorth.products {I I₁ I₂ : Fn → ℝ} {D₁ L₁ D₂ L₂ : List Fn} (h₁ : Biorth I₁ D₁ L₁)
    (h₂ : Biorth I₂ D₂ L₂) (hI : ∀ f ∈ D₁, ∀ g ∈ L₁, ∀ f' ∈ D₂, ∀ g' ∈ L₂,
      I (f * f' * (g * g')) = I₁ (f * g) * I₂ (f' * g')) :
    Biorth I (Orthogonal.products D₁ D₂) (Orthogonal.products L₁ L₂) := by
  refine ⟨by rw [products_length, products_length, h₁.1, h₂.1], fun i j f g hf hg => ?_⟩
  obtain ⟨a, b, x, y, rfl, hb, hx, hy, rfl⟩ := products_get_inv hf
  obtain ⟨a', b', x', y', rfl, hb', hx', hy', rfl⟩ := products_get_inv hg
  rw [hI x (List.mem_of_getElem? hx) x' (List.mem_of_getElem? hx') y (List.mem_of_getElem? hy) y'
    (List.mem_of_getElem? hy'), h₁.2 _ _ _ _ hx hx', h₂.2 _ _ _ _ hy hy', h₂.1]
  rw [h₂.1] at hb
  by_cases e1 : a = a'
  · by_cases e2 : b = b'
    · simp [e1, e2]
    · subst e1
      rw [if_neg e2, if_pos rfl, if_neg (by omega), mul_zero]
  · rw [if_neg e1, zero_mul, eq_comm]
    apply if_neg
    intro he
    apply e1
    have h1 : (a * L₂.length + b) / L₂.length = a := by
      rw [mul_comm, Nat.mul_add_div (by omega), Nat.div_eq_of_lt hb, add_zero]
    have h2 : (a' * L₂.length + b') / L₂.length = a' := by
      rw [mul_comm, Nat.mul_add_div (by omega), Nat.div_eq_of_lt hb', add_zero]
    rw [← h1, he, h2]

theorem Biorth.map {I I' : Fn → ℝ} {D L : List Fn} (h : Biorth I D L) (φ : Fn → Fn)
    (hφ : ∀ f ∈ D, ∀ g ∈ L, I' (φ f * φ g) = I (f * g)) : Biorth I' (D.map φ) (L.map φ) := by
  refine ⟨by simp [h.1], fun i j f g hf hg => ?_⟩
  rw [List.getElem?_map, Option.map_eq_some_iff] at hf hg
  obtain ⟨f', hf', rfl⟩ := hf
  obtain ⟨g', hg', rfl⟩ := hg
  rw [hφ _ (List.mem_of_getElem? hf') _ (List.mem_of_getElem? hg'), h.2 _ _ _ _ hf' hg']

theorem tensor_quad (l : List Fn) :
    tensor .quadrilateral l = some (products l (l.map (subsVar 1))) := by
  simp [tensor, products, Function.comp_def]

theorem tensor_hex (l : List Fn) :
    tensor .hexahedron l = some (products (products l (l.map (subsVar 1))) (l.map (subsVar 2))) := by
  simp [tensor, products, Function.comp_def, List.flatMap_assoc, List.flatMap_map]

/-- Tensor products of families that are bi-orthogonal on the interval are bi-orthogonal on the
cell. -/
theorem Biorth.tensor {D L D' L' : List Fn} {c : Cell} (h : Biorth (cellInt .interval) D L)
    (hD : ∀ f ∈ D, ∃ P, f = uni P) (hL : ∀ f ∈ L, ∃ P, f = uni P)
    (hD' : tensor c D = some D') (hL' : tensor c L = some L') : Biorth (cellInt c) D' L' := by
  have hone : ∀ P Q : ℝ[X], cellInt .interval (uni P * uni Q) =
      ∫ x in (0 : ℝ)..1, P.eval x * Q.eval x := by
    intro P Q
    rw [cellInt_interval]
    simp [uni]
  have hs : ∀ (i : ℕ) (P : ℝ[X]), subsVar i (uni P) = fun p => P.eval (p i) := by
    intro i P; funext p; simp [subsVar, uni]
  cases c <;> simp only [Orthogonal.tensor, reduceCtorEq] at hD' hL'
  · simp only [Option.some.injEq] at hD' hL'
    subst hD' hL'
    exact h
  · have e := tensor_quad D
    have e' := tensor_quad L
    simp only [Orthogonal.tensor] at e e'
    rw [e, Option.some.injEq] at hD'
    rw [e', Option.some.injEq] at hL'
    subst hD' hL'
    refine h.products (I₂ := fun f => ∫ y in (0 : ℝ)..1, f (fun _ => y)) (h.map (subsVar 1) ?_) ?_
    · intro f hf g hg
      obtain ⟨P, rfl⟩ := hD f hf
      obtain ⟨Q, rfl⟩ := hL g hg
      rw [hone, hs, hs]
      rfl
    · intro f hf g hg f' hf' g' hg'
      obtain ⟨P, rfl⟩ := hD f hf
      obtain ⟨Q, rfl⟩ := hL g hg
      obtain ⟨f', hf'', rfl⟩ := List.mem_map.1 hf'
      obtain ⟨g', hg'', rfl⟩ := List.mem_map.1 hg'
      obtain ⟨P', rfl⟩ := hD f' hf''
      obtain ⟨Q', rfl⟩ := hL g' hg''
      rw [hone, hs, hs]
      have := cellInt_quadrilateral fun x y => (P.eval x * P'.eval y) * (Q.eval x * Q'.eval y)
      refine this.trans ?_
      simp only [Pi.mul_apply]
      rw [← intervalIntegral.integral_mul_const]
      refine intervalIntegral.integral_congr fun x _ => ?_
      rw [← intervalIntegral.integral_const_mul]
      exact intervalIntegral.integral_congr fun y _ => by ring
  · have e := tensor_hex D
    have e' := tensor_hex L
    simp only [Orthogonal.tensor] at e e'
    rw [e, Option.some.injEq] at hD'
    rw [e', Option.some.injEq] at hL'
    subst hD' hL'
    have hsub : ∀ i, Biorth (fun f => ∫ y in (0 : ℝ)..1, f (fun _ => y)) (D.map (subsVar i))
        (L.map (subsVar i)) := by
      intro i
      refine h.map (subsVar i) ?_
      intro f hf g hg
      obtain ⟨P, rfl⟩ := hD f hf
      obtain ⟨Q, rfl⟩ := hL g hg
      rw [hone, hs, hs]
      rfl
    have hquad : ∀ P P' Q Q' : ℝ[X], cellInt .quadrilateral (uni P * subsVar 1 (uni P') *
        (uni Q * subsVar 1 (uni Q'))) = (∫ x in (0 : ℝ)..1, P.eval x * Q.eval x) *
          ∫ y in (0 : ℝ)..1, P'.eval y * Q'.eval y := by
      intro P P' Q Q'
      rw [hs, hs]
      have := cellInt_quadrilateral fun x y => (P.eval x * P'.eval y) * (Q.eval x * Q'.eval y)
      refine this.trans ?_
      rw [← intervalIntegral.integral_mul_const]
      refine intervalIntegral.integral_congr fun x _ => ?_
      rw [← intervalIntegral.integral_const_mul]
      exact intervalIntegral.integral_congr fun y _ => by ring
    refine Biorth.products (I₁ := cellInt .quadrilateral)
      (I₂ := fun f => ∫ y in (0 : ℝ)..1, f (fun _ => y)) (h.products (hsub 1) ?_) (hsub 2) ?_
    · intro f hf g hg f' hf' g' hg'
      obtain ⟨P, rfl⟩ := hD f hf
      obtain ⟨Q, rfl⟩ := hL g hg
      obtain ⟨f', hf'', rfl⟩ := List.mem_map.1 hf'
      obtain ⟨g', hg'', rfl⟩ := List.mem_map.1 hg'
      obtain ⟨P', rfl⟩ := hD f' hf''
      obtain ⟨Q', rfl⟩ := hL g' hg''
      rw [hquad, hone, hs, hs]
      rfl
    · intro f hf g hg f' hf' g' hg'
      simp only [Orthogonal.products, List.mem_flatMap, List.mem_map] at hf hg
      obtain ⟨f, hf, f1, ⟨f1, hf1, rfl⟩, rfl⟩ := hf
      obtain ⟨g, hg, g1, ⟨g1, hg1, rfl⟩, rfl⟩ := hg
      obtain ⟨P, rfl⟩ := hD f hf
      obtain ⟨Q, rfl⟩ := hL g hg
      obtain ⟨P₁, rfl⟩ := hD f1 hf1
      obtain ⟨Q₁, rfl⟩ := hL g1 hg1
      obtain ⟨f', hf'', rfl⟩ := List.mem_map.1 hf'
      obtain ⟨g', hg'', rfl⟩ := List.mem_map.1 hg'
      obtain ⟨P', rfl⟩ := hD f' hf''
      obtain ⟨Q', rfl⟩ := hL g' hg''
      rw [hquad, hs, hs, hs, hs]
      have := cellInt_hexahedron fun x y z => (P.eval x * P₁.eval y * P'.eval z) *
        (Q.eval x * Q₁.eval y * Q'.eval z)
      refine this.trans ?_
      simp only [Pi.mul_apply]
      rw [mul_assoc, ← intervalIntegral.integral_mul_const]
      refine intervalIntegral.integral_congr fun x _ => ?_
      rw [← intervalIntegral.integral_mul_const, ← intervalIntegral.integral_const_mul]
      refine intervalIntegral.integral_congr fun y _ => ?_
      rw [← intervalIntegral.integral_const_mul, ← intervalIntegral.integral_const_mul]
      exact intervalIntegral.integral_congr fun z _ => by ring

/-! ### The dual of the Lobatto polynomials -/

theorem lobattoInterval_gram (order : ℕ) (h : 0 < order) :
    IsUnit (gram .interval (lobattoInterval order)).det :=
  gram_isUnit lobPoly lobPoly_degree _ _ (lobattoInterval_eq order h)

theorem uni_of_l2Dual {l d : List Fn} (hd : l2Dual .interval l = some d)
    (hl : ∀ f ∈ l, ∃ P, f = uni P) : ∀ f ∈ d, ∃ P, f = uni P := by
  intro f hf
  obtain ⟨-, hlen, ho⟩ := l2Dual_spec hd
  obtain ⟨i, hi, rfl⟩ := List.getElem_of_mem hf
  choose P hP using fun j : Fin l.length => hl l[j] (List.getElem_mem _)
  refine ⟨∑ j : Fin l.length, C ((gram .interval l)⁻¹ ⟨i, hlen ▸ hi⟩ j) * P j, ?_⟩
  funext p
  have := ho ⟨i, hlen ▸ hi⟩ p
  simp only [Fin.getElem_fin] at this
  rw [this]
  simp only [uni, eval_finsetSum, eval_mul, eval_C]
  refine Finset.sum_congr rfl fun j _ => ?_
  have hj := congrFun (hP j) p
  simp only [uni, Fin.getElem_fin] at hj
  rw [hj]

/-- **C77** `lobatto_dual_basis` exists for the interval, quadrilateral and hexahedron, and its
functions are bi-orthogonal, over the cell, to those of `lobatto_basis` with the same arguments. -/
theorem lobattoDualBasis_dual {c : Cell} (hc : c = .interval ∨ c = .quadrilateral ∨ c = .hexahedron)
    {order : ℕ} (h : 0 < order) (endpoints : Bool) : ∃ D L, lobattoDualBasis c order endpoints = some D ∧
      lobattoBasis c order endpoints = some L ∧ D.length = L.length ∧
      ∀ (i j : ℕ) (f g : Fn), D[i]? = some f → L[j]? = some g →
        cellInt c (fun p => f p * g p) = if i = j then 1 else 0 := by
  obtain ⟨d, hd⟩ := Option.isSome_iff_exists.1 ((l2Dual_isSome _ _).2 (lobattoInterval_gram order h))
  have hL : ∀ f ∈ lobattoInterval order, ∃ P, f = uni P := by
    intro f hf
    rw [lobattoInterval_eq order h] at hf
    obtain ⟨k, -, rfl⟩ := List.mem_map.1 hf
    exact ⟨_, rfl⟩
  have hD := uni_of_l2Dual hd hL
  have hb : Biorth (cellInt .interval) d (lobattoInterval order) := by
    obtain ⟨hl, hdual⟩ := l2Dual_dual hd fun f hf => by
      obtain ⟨P, rfl⟩ := hL f hf; exact uni_continuous P
    refine ⟨hl, fun i j f g hf hg => ?_⟩
    obtain ⟨hi, rfl⟩ := List.getElem?_eq_some_iff.1 hf
    obtain ⟨hj, rfl⟩ := List.getElem?_eq_some_iff.1 hg
    have := hdual ⟨i, hl ▸ hi⟩ ⟨j, hj⟩
    simp only [Fin.getElem_fin, Fin.mk.injEq] at this
    exact this
  have ht : ∀ l : List Fn, ∃ t, tensor c l = some t := by
    rcases hc with rfl | rfl | rfl <;> exact fun l => ⟨_, rfl⟩
  obtain ⟨D, eD⟩ := ht (if endpoints then d else d.drop 2)
  obtain ⟨L, eL⟩ := ht (if endpoints then lobattoInterval order else (lobattoInterval order).drop 2)
  have key : Biorth (cellInt c) D L := by
    refine Biorth.tensor (D := if endpoints then d else d.drop 2)
      (L := if endpoints then lobattoInterval order else (lobattoInterval order).drop 2) ?_ ?_ ?_ eD eL
    · split_ifs
      · exact hb
      · exact hb.drop 2
    · intro f hf
      split_ifs at hf
      · exact hD f hf
      · exact hD f (List.mem_of_mem_drop hf)
    · intro f hf
      split_ifs at hf
      · exact hL f hf
      · exact hL f (List.mem_of_mem_drop hf)
  refine ⟨D, L, ?_, eL, key.1, key.2⟩
  unfold lobattoDualBasis
  rw [hd]
  exact eD

/-- The hypotheses of `lobattoBasis_boundary` are met: there are four bubbles of order 3 on the
quadrilateral. -/
example : ∃ l f, lobattoBasis .quadrilateral 3 false = some l ∧ l.length = 4 ∧ f ∈ l ∧
    ∀ t, f (fun i => if i = 0 then 1 else t) = 0 := by
  have hl : lobattoBasis .quadrilateral 3 false = some _ := tensor_quad _
  have hlen : (products ((lobattoInterval 3).drop 2) (((lobattoInterval 3).drop 2).map (subsVar 1))).length
      = 4 := by
    simp [products_length, lobattoInterval_length]
  obtain ⟨f, hf⟩ := List.exists_mem_of_length_pos (l := products ((lobattoInterval 3).drop 2)
    (((lobattoInterval 3).drop 2).map (subsVar 1))) (by omega)
  exact ⟨_, f, hl, hlen, hf, fun t =>
    lobattoBasis_boundary (by norm_num) hl hf (i := 0) (by simp [Cell.tdim]) (by simp)⟩

end Verif.Orthogonal
