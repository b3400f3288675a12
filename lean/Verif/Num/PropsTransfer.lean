import Verif.Num.LemTransfer
import Verif.Num.PropsOrder
import Verif.Num.PropsGauss

/-!
# Property C106: linear parts of a model

Combinations of the states that obey linear differential equations: what a step of the collocation method does to them, and what happens
to stiff components.
-/

open Polynomial

namespace CE

/-- The combinations `y[a] = sum W[a,i]*x[i] - g[a](u, p)` of the states obey `d/dt (sum W[a,i]*x[i]) = sum La[a,b]*y[b]` wherever the
residual vanishes; `g` depends on the inputs and the parameters only. -/
structure LinearPart {K : Type} [Field K] (d : DaeObj K) (xdot res : MXExpr K) {r : ℕ} (W : Fin r → ℕ → K)
    (g : (ℕ → K) → (ℕ → K) → Fin r → K) (La : Matrix (Fin r) (Fin r) K) : Prop where
  law : ∀ e, ResidualZero res e → ∀ a, ∑ i ∈ Finset.range d.nx, W a i * xdot.val e i 0 =
    ∑ b, La a b * (∑ i ∈ Finset.range d.nx, W b i * d.x.val e i 0 - g (fun k => d.u.val e k 0) (fun k => d.p.val e k 0) b)
  congr : ∀ u u' p p' : ℕ → K, (∀ k < d.nu, u k = u' k) → (∀ k < d.np, p k = p' k) → g u p = g u' p'

section
variable {K : Type} [Field K] [DecidableEq K] [CharZero K] (fresh freshI : String → ℕ)
    (casadiPoints : ℕ → String → Except PyErr (List K))
    (csFunction : List (MXExpr K) → List (MXExpr K) → Except PyErr (CsFn K))
    (dae : DaeObj K) (t : List K) (order : ℕ) (method : String) (tdp_fun : Option (K → Mat K))
    (d : DaeObj K) (xdot res : MXExpr K) (tau : List K) (F : CsFn K) (rep : Bool) (s : Scheme K)

/-- **C106** (transfer matrix) Let combinations `y` of the states obey linear differential equations with the matrix `La`, `Om` be the
polynomial with the nodes as roots, and `E(c) = sum_j Om^(j)(c) * (h*La)^(M-j)`. Then a step of length `h` takes `y` to `y'` with
`E(0)*y' = E(1)*y`, and at the collocation points `E(0)*Y[j] = E(tau[j])*y`, at every solution of the collocation equations. -/
theorem C106_transfer (hcs : IsCsFunction csFunction)
    (pre : SchemePre freshI casadiPoints csFunction dae t order method tdp_fun d xdot res tau F)
    (hs : Scheme.new fresh freshI casadiPoints csFunction dae t order method tdp_fun rep = .ok s)
    (hd : tau.Nodup) (ht : ∀ n < s.N, nd t n ≠ nd t (n + 1)) (env : Env K) (heq : ∀ v ∈ s.eq.vals env, v = 0)
    {r : ℕ} (W : Fin r → ℕ → K) (g : (ℕ → K) → (ℕ → K) → Fin r → K) (La : Matrix (Fin r) (Fin r) K)
    (lin : LinearPart d xdot res W g La) (n : ℕ) (hn : n < s.N) :
    let Om : K[X] := (tau.map fun c => X - C c).prod
    let E : K → Matrix (Fin r) (Fin r) K := fun c =>
      ∑ j ∈ Finset.range (s.M + 1), (derivative^[j] Om).eval c • ((nd t (n + 1) - nd t n) • La) ^ (s.M - j)
    let y : (ℕ → K) → Fin r → K := fun x a =>
      ∑ i ∈ Finset.range d.nx, W a i * x i - g (fun k => s.u.val env k n) (fun k => s.p.val env k 0) a
    (E 0).mulVec (y fun i => s.x.val env i (n + 1)) = (E 1).mulVec (y fun i => s.x.val env i n) ∧
    ∀ j < s.M, (E 0).mulVec (y fun i => s.X.val env i (n * s.M + j)) = (E (nd tau j)).mulVec (y fun i => s.x.val env i n) := by
  intro Om E y
  have b := pre.built hs
  have h25 := C25_equations fresh freshI casadiPoints csFunction dae t order method tdp_fun d xdot res tau F rep s hcs pre hs
    hd ht env
  obtain ⟨hres, hend, hpar⟩ := h25.1.mp heq
  have h24 := fun i => C24_state_integration fresh freshI casadiPoints csFunction dae t order method tdp_fun d xdot
    res tau F rep s pre hs hd env i n hn
  choose P hP _ using fun i => (h24 i).1 (ht n hn)
  have hnp : d.np = d.p.rows := by simp [DaeObj.np, MXExpr.numel, pre.p]
  have hM := b.M_eq
  have hlen := pre.len
  have hpos := pre.pos
  set h := nd t (n + 1) - nd t n with hh
  set gn := g (fun k => s.u.val env k n) (fun k => s.p.val env k 0) with hgn
  -- the combinations along the collocation polynomials, in local time
  let ℓ : K[X] := C h * X + C (nd t n)
  let v : Fin r → K[X] := fun a => ∑ i ∈ Finset.range d.nx, C (W a i) * (P i).comp ℓ - C (gn a)
  have hve : ∀ c a, (v a).eval c = ∑ i ∈ Finset.range d.nx, W a i * (P i).eval (nd t n + h * c) - gn a := by
    intro c a
    simp only [v, ℓ, eval_sub, eval_finset_sum, eval_mul, eval_C, eval_comp, eval_add, eval_X]
    rw [add_comm (h * c)]
  have hv' : ∀ a, derivative (v a) = C h * ∑ i ∈ Finset.range d.nx, C (W a i) * (derivative (P i)).comp ℓ := by
    intro a
    simp only [v, ℓ, derivative_sub, derivative_sum, derivative_C_mul, derivative_C, sub_zero, derivative_comp, derivative_add,
      derivative_X, mul_one, add_zero, Finset.mul_sum]
    exact Finset.sum_congr rfl fun i _ => by ring
  have hdegP : ∀ i, ((P i).comp ℓ).natDegree ≤ s.M := by
    intro i
    refine natDegree_comp_le.trans ?_
    have h1 : ℓ.natDegree ≤ 1 := natDegree_linear_le
    have h2 : (P i).natDegree ≤ s.M := natDegree_le_iff_degree_le.2 (hP i).degree
    calc (P i).natDegree * ℓ.natDegree ≤ s.M * 1 := Nat.mul_le_mul h2 h1
      _ = s.M := Nat.mul_one _
  have hdeg : ∀ a, (v a).natDegree ≤ s.M := by
    intro a
    refine (natDegree_sub_le _ _).trans (max_le (natDegree_sum_le_of_forall_le _ _ fun i _ => ?_) (by rw [natDegree_C]; exact Nat.zero_le _))
    exact (natDegree_C_mul_le _ _).trans (hdegP i)
  -- the equations at the nodes
  have hnode : ∀ a, ∀ c ∈ tau, (derivative (v a) - ∑ b, C ((h • La) a b) * v b).eval c = 0 := by
    intro a c hc
    obtain ⟨j, hj, rfl⟩ := List.getElem_of_mem hc
    have hjo : j < order := by rw [← hlen]; exact hj
    have hndj : tau[j] = nd tau j := by simp [nd, List.getD_eq_getElem?_getD, hj]
    rw [hndj]
    have hcN : n * order + j < s.N * s.M := by rw [hM]; exact block_lt hn hjo
    obtain ⟨env', hat⟩ := h25.2.1 _ hcN
    have h0 := lin.law env' (hres _ hcN env' hat) a
    have htc : nd s.tc (n * order + j) = nd t n + h * nd tau j := b.tc n j (by rw [← b.N_eq]; exact hn) hjo
    have hX : ∀ i < d.nx, (P i).eval (nd t n + h * nd tau j) = d.x.val env' i 0 := by
      intro i hi
      rw [hat.x i (by rw [← pre.wf.nx]; exact hi)]
      have := ((h24 i).2 (P i) (hP i)).1 j (by rw [hM]; exact hjo)
      rw [hM] at this
      rw [this, htc]
    have hK : ∀ i < d.nx, (derivative (P i)).eval (nd t n + h * nd tau j) = xdot.val env' i 0 := by
      intro i hi
      rw [hat.xdot i (by rw [← pre.wf.nx]; exact hi)]
      have := (hP i).deriv j (by rw [hM]; exact hjo)
      rw [hM] at this
      rw [← this, htc]
    have hg : g (fun k => d.u.val env' k 0) (fun k => d.p.val env' k 0) = gn := by
      refine lin.congr _ _ _ _ (fun k hk => ?_) fun k hk => ?_
      · rw [hat.u k (by rw [← pre.wf.nu]; exact hk)]
        congr 1
        rw [hM, Nat.add_comm, Nat.add_mul_div_right _ _ hpos, Nat.div_eq_of_lt hjo, Nat.zero_add]
      · rw [hat.p k (by rw [← hnp]; exact hk)]
        cases rep with
        | true => exact hpar rfl _ hcN k hk
        | false => rfl
    rw [hg] at h0
    rw [eval_sub, hv', eval_mul, eval_C, eval_finset_sum, eval_finset_sum]
    have e1 : ∑ i ∈ Finset.range d.nx, (C (W a i) * (derivative (P i)).comp ℓ).eval (nd tau j) =
        ∑ i ∈ Finset.range d.nx, W a i * xdot.val env' i 0 := by
      refine Finset.sum_congr rfl fun i hi => ?_
      rw [eval_mul, eval_C, eval_comp, ← hK i (Finset.mem_range.1 hi)]
      congr 2
      simp only [ℓ, eval_add, eval_mul, eval_C, eval_X]
      ring
    have e2 : ∀ b, (v b).eval (nd tau j) = ∑ i ∈ Finset.range d.nx, W b i * d.x.val env' i 0 - gn b := by
      intro b
      rw [hve]
      congr 1
      exact Finset.sum_congr rfl fun i hi => by rw [hX i (Finset.mem_range.1 hi)]
    rw [e1, h0, Finset.mul_sum, ← Finset.sum_sub_distrib]
    refine Finset.sum_eq_zero fun b _ => ?_
    rw [eval_mul, eval_C, e2, Matrix.smul_apply, smul_eq_mul]
    ring
  have hw : ∀ a, ∃ w : K, derivative (v a) - ∑ b, C ((h • La) a b) * v b = nodePoly tau * C w := by
    intro a
    refine eq_nodePoly_mul hd ?_ (hnode a)
    rw [hlen, ← hM]
    refine (degree_sub_le _ _).trans (max_le ?_ ?_)
    · exact (degree_derivative_le).trans (natDegree_le_iff_degree_le.1 (hdeg a))
    · refine (degree_sum_le _ _).trans (Finset.sup_le fun b _ => ?_)
      refine (degree_mul_le _ _).trans ((add_le_add degree_C_le (natDegree_le_iff_degree_le.1 (hdeg b))).trans ?_)
      rw [zero_add]
  choose w hw using hw
  have key := fun c => transfer_eq (M := nodePoly tau) (k := s.M) (by rw [nodePoly_natDegree, hlen, hM]) (h • La) (v := v) (w := w) hdeg
    (fun a => by rw [← hw a]; ring) c
  have hv0 : (fun a => (v a).eval 0) = y fun i => s.x.val env i n := by
    funext a
    rw [hve]
    congr 1
    refine Finset.sum_congr rfl fun i _ => ?_
    have := (hP i).start
    rw [b.t_eq] at this
    rw [mul_zero, add_zero, this]
  constructor
  · have h1 := key 1
    rw [hv0] at h1
    rw [show (y fun i => s.x.val env i (n + 1)) = fun a => (v a).eval 1 from ?_]
    · exact h1
    · funext a
      rw [hve]
      show ∑ i ∈ Finset.range d.nx, W a i * s.x.val env i (n + 1) - gn a = _
      refine congrArg (· - gn a) (Finset.sum_congr rfl fun i hi => ?_)
      rw [mul_one, hh, add_sub_cancel, hend n hn i (Finset.mem_range.1 hi) _ (hP i)]
  · intro j hj
    have h1 := key (nd tau j)
    rw [hv0] at h1
    rw [show (y fun i => s.X.val env i (n * s.M + j)) = fun a => (v a).eval (nd tau j) from ?_]
    · exact h1
    · funext a
      rw [hve]
      show ∑ i ∈ Finset.range d.nx, W a i * s.X.val env i (n * s.M + j) - gn a = _
      refine congrArg (· - gn a) (Finset.sum_congr rfl fun i hi => ?_)
      have htc : nd s.tc (n * order + j) = nd t n + h * nd tau j := b.tc n j (by rw [← b.N_eq]; exact hn) (by rw [← hM]; exact hj)
      rw [((h24 i).2 (P i) (hP i)).1 j hj, hM, htc]

end

/-! ## Stiff components -/

/-- The derivatives of the node polynomial at 0 alternate in sign if the nodes are positive. -/
theorem nodePoly_sign {tau : List ℝ} (hpos : ∀ c ∈ tau, 0 < c) (j : ℕ) (hj : j ≤ tau.length) :
    0 < (-1) ^ (tau.length - j) * (derivative^[j] (nodePoly tau)).eval 0 := by
  have key : ∀ tau : List ℝ, (∀ c ∈ tau, 0 < c) → ∀ j ≤ tau.length, 0 < (-1) ^ (tau.length - j) * (nodePoly tau).coeff j := by
    intro tau
    induction tau with
    | nil =>
      intro _ j hj
      obtain rfl : j = 0 := by simpa using hj
      simp [nodePoly]
    | cons c tau ih =>
      intro hpos j hj
      have ih := ih fun x hx => hpos x (List.mem_cons_of_mem _ hx)
      have hc := hpos c List.mem_cons_self
      have e : nodePoly (c :: tau) = X * nodePoly tau - C c * nodePoly tau := by
        simp only [nodePoly, List.map_cons, List.prod_cons]
        ring
      have hl : (c :: tau).length = tau.length + 1 := rfl
      rw [hl] at hj ⊢
      rw [e, coeff_sub, coeff_C_mul]
      cases j with
      | zero =>
        have := mul_pos hc (ih 0 (Nat.zero_le _))
        rw [coeff_X_mul_zero, Nat.sub_zero, pow_succ]
        rw [Nat.sub_zero] at this
        linarith
      | succ j =>
        rw [coeff_X_mul, Nat.add_sub_add_right]
        have h1 := ih j (by omega)
        by_cases hj' : j + 1 ≤ tau.length
        · have h2 := mul_pos hc (ih (j + 1) hj')
          have h3 : tau.length - j = tau.length - (j + 1) + 1 := by omega
          rw [h3, pow_succ] at h1 ⊢
          linarith
        · rw [coeff_eq_zero_of_natDegree_lt (n := j + 1) (by rw [nodePoly_natDegree]; omega), mul_zero, sub_zero]
          exact h1
  have h1 := key tau hpos j hj
  rw [← coeff_zero_eq_eval_zero, coeff_iterate_derivative, zero_add, nsmul_eq_mul]
  have h2 : (0 : ℝ) < (j.descFactorial j : ℕ) := by
    rw [Nat.descFactorial_self]
    exact_mod_cast j.factorial_pos
  have := mul_pos h2 h1
  linarith

/-- The value of the stability function at infinity. -/
theorem nodePoly_ratio {tau : List ℝ} (hpos : ∀ c ∈ tau, 0 < c) :
    (nodePoly tau).eval 1 = (tau.map fun c => 1 - 1 / c).prod * (nodePoly tau).eval 0 := by
  induction tau with
  | nil => simp [nodePoly]
  | cons c tau ih =>
    have e : nodePoly (c :: tau) = (X - C c) * nodePoly tau := by simp [nodePoly]
    have hc := hpos c List.mem_cons_self
    rw [e, eval_mul, eval_mul, ih fun x hx => hpos x (List.mem_cons_of_mem _ hx), List.map_cons, List.prod_cons]
    simp only [eval_sub, eval_X, eval_C]
    field_simp
    ring

/-- The bound for a scalar equation. -/
theorem transfer_stiff (tau : List ℝ) (hpos : ∀ c ∈ tau, 0 < c) : ∃ B : ℝ, ∀ x y y' : ℝ, 0 ≤ x →
    (∑ j ∈ Finset.range (tau.length + 1), (derivative^[j] (nodePoly tau)).eval 0 * (-x) ^ (tau.length - j)) * y' =
      (∑ j ∈ Finset.range (tau.length + 1), (derivative^[j] (nodePoly tau)).eval 1 * (-x) ^ (tau.length - j)) * y →
    x * |y' - (tau.map fun c => 1 - 1 / c).prod * y| ≤ B * |y| := by
  set R := (tau.map fun c => 1 - 1 / c).prod with hR
  set k := tau.length with hk
  set a : ℕ → ℝ := fun j => (derivative^[j] (nodePoly tau)).eval 0 with ha
  set b : ℕ → ℝ := fun j => (derivative^[j] (nodePoly tau)).eval 1 with hb
  have hsgn : ∀ j ≤ k, 0 < (-1) ^ (k - j) * a j := fun j hj => nodePoly_sign hpos j hj
  have habs : ∀ j ≤ k, (-1) ^ (k - j) * a j = |a j| := by
    intro j hj
    rw [← abs_of_pos (hsgn j hj), abs_mul, abs_pow, abs_neg, abs_one, one_pow, one_mul]
  have hapos : ∀ j ≤ k, 0 < |a j| := fun j hj => by rw [← habs j hj]; exact hsgn j hj
  refine ⟨∑ j ∈ Finset.range k, |b (j + 1) - R * a (j + 1)| / |a j|, fun x y y' hx h => ?_⟩
  set B := ∑ j ∈ Finset.range k, |b (j + 1) - R * a (j + 1)| / |a j| with hB
  have hB1 : ∀ j < k, |b (j + 1) - R * a (j + 1)| ≤ B * |a j| := by
    intro j hj
    rw [← div_le_iff₀ (hapos j hj.le)]
    exact Finset.single_le_sum (f := fun j => |b (j + 1) - R * a (j + 1)| / |a j|)
      (fun i _ => div_nonneg (abs_nonneg _) (abs_nonneg _)) (Finset.mem_range.2 hj)
  have hB0 : 0 ≤ B := Finset.sum_nonneg fun i _ => div_nonneg (abs_nonneg _) (abs_nonneg _)
  have e0 : ∑ j ∈ Finset.range (k + 1), a j * (-x) ^ (k - j) = ∑ j ∈ Finset.range (k + 1), |a j| * x ^ (k - j) := by
    refine Finset.sum_congr rfl fun j hj => ?_
    rw [← habs j (by have := Finset.mem_range.1 hj; omega), neg_pow x]
    ring
  set S := ∑ j ∈ Finset.range (k + 1), |a j| * x ^ (k - j) with hS
  have hSpos : 0 < S := by
    rw [hS, Finset.sum_range_succ, Nat.sub_self, pow_zero, mul_one]
    exact add_pos_of_nonneg_of_pos (Finset.sum_nonneg fun j _ => mul_nonneg (abs_nonneg _) (pow_nonneg hx _)) (hapos k le_rfl)
  have hSle : ∑ j ∈ Finset.range k, |a j| * x ^ (k - j) ≤ S := by
    rw [hS, Finset.sum_range_succ]
    exact le_add_of_nonneg_right (mul_nonneg (abs_nonneg _) (pow_nonneg hx _))
  have hnum : x * |∑ j ∈ Finset.range (k + 1), b j * (-x) ^ (k - j) - R * S| ≤ B * S := by
    conv_lhs => rw [← e0, Finset.mul_sum, ← Finset.sum_sub_distrib, Finset.sum_range_succ']
    have hz : b 0 - R * a 0 = 0 := by
      have := nodePoly_ratio hpos
      show (nodePoly tau).eval 1 - R * (nodePoly tau).eval 0 = 0
      rw [this, hR, sub_self]
    have hz' : b 0 * (-x) ^ (k - 0) - R * (a 0 * (-x) ^ (k - 0)) = 0 := by
      rw [← mul_assoc, ← sub_mul, hz, zero_mul]
    rw [hz', add_zero]
    calc x * |∑ j ∈ Finset.range k, (b (j + 1) * (-x) ^ (k - (j + 1)) - R * (a (j + 1) * (-x) ^ (k - (j + 1))))|
        ≤ x * ∑ j ∈ Finset.range k, |b (j + 1) * (-x) ^ (k - (j + 1)) - R * (a (j + 1) * (-x) ^ (k - (j + 1)))| :=
          mul_le_mul_of_nonneg_left (Finset.abs_sum_le_sum_abs _ _) hx
      _ ≤ ∑ j ∈ Finset.range k, B * (|a j| * x ^ (k - j)) := by
          rw [Finset.mul_sum]
          refine Finset.sum_le_sum fun j hj => ?_
          have hj := Finset.mem_range.1 hj
          rw [← mul_assoc R, ← sub_mul, abs_mul, abs_pow, abs_neg, abs_of_nonneg hx]
          have : k - j = k - (j + 1) + 1 := by omega
          rw [this, pow_succ]
          have := mul_le_mul_of_nonneg_right (hB1 j hj) (mul_nonneg (pow_nonneg hx (k - (j + 1))) hx)
          linarith
      _ = B * ∑ j ∈ Finset.range k, |a j| * x ^ (k - j) := by rw [Finset.mul_sum]
      _ ≤ B * S := mul_le_mul_of_nonneg_left hSle hB0
  replace h : (∑ j ∈ Finset.range (k + 1), a j * (-x) ^ (k - j)) * y' = (∑ j ∈ Finset.range (k + 1), b j * (-x) ^ (k - j)) * y := h
  rw [e0] at h
  have h1 : S * (y' - R * y) = (∑ j ∈ Finset.range (k + 1), b j * (-x) ^ (k - j) - R * S) * y := by
    rw [sub_mul, ← h]
    ring
  have h2 : S * (x * |y' - R * y|) ≤ S * (B * |y|) := by
    have : S * (x * |y' - R * y|) = x * |S * (y' - R * y)| := by
      rw [abs_mul, abs_of_pos hSpos]
      ring
    rw [this, h1, abs_mul, ← mul_assoc]
    have := mul_le_mul_of_nonneg_right hnum (abs_nonneg y)
    linarith
  exact le_of_mul_le_mul_left h2 hSpos

section

/-- **C106** (stiff components) For positive nodes there is a bound `B` that depends on the nodes alone: if a combination `y` of the
states of any model relaxes with the rate `la < 0`, a step of length `h` multiplies it by `R = prod (1 - 1/c)` up to an error of
`B/(h*|la|)`, however stiff the component is. -/
theorem C106_stiff (tau : List ℝ) (hd : tau.Nodup) (hpos : ∀ c ∈ tau, 0 < c) : ∃ B : ℝ,
    ∀ (fresh freshI : String → ℕ) (casadiPoints : ℕ → String → Except PyErr (List ℝ))
      (csFunction : List (MXExpr ℝ) → List (MXExpr ℝ) → Except PyErr (CsFn ℝ)) (dae : DaeObj ℝ) (t : List ℝ) (order : ℕ)
      (method : String) (tdp_fun : Option (ℝ → Mat ℝ)) (d : DaeObj ℝ) (xdot res : MXExpr ℝ) (F : CsFn ℝ) (rep : Bool) (s : Scheme ℝ),
    IsCsFunction csFunction → SchemePre freshI casadiPoints csFunction dae t order method tdp_fun d xdot res tau F →
    Scheme.new fresh freshI casadiPoints csFunction dae t order method tdp_fun rep = .ok s →
    (∀ n < s.N, nd t n < nd t (n + 1)) → ∀ env : Env ℝ, (∀ v ∈ s.eq.vals env, v = 0) →
    ∀ (W : ℕ → ℝ) (g : (ℕ → ℝ) → (ℕ → ℝ) → ℝ) (la : ℝ), la < 0 →
    LinearPart d xdot res (fun _ : Fin 1 => W) (fun u p _ => g u p) (Matrix.of fun _ _ => la) → ∀ n < s.N,
    let y : (ℕ → ℝ) → ℝ := fun x => ∑ i ∈ Finset.range d.nx, W i * x i - g (fun k => s.u.val env k n) (fun k => s.p.val env k 0)
    (nd t (n + 1) - nd t n) * |la| *
        |y (fun i => s.x.val env i (n + 1)) - (tau.map fun c => 1 - 1 / c).prod * y (fun i => s.x.val env i n)| ≤
      B * |y fun i => s.x.val env i n| := by
  obtain ⟨B, hB⟩ := transfer_stiff tau hpos
  refine ⟨B, fun fresh freshI casadiPoints csFunction dae t order method tdp_fun d xdot res F rep s hcs pre hs ht env heq W g la hla lin
    n hn => ?_⟩
  intro y
  have h := (C106_transfer fresh freshI casadiPoints csFunction dae t order method tdp_fun d xdot res tau F rep s hcs pre hs hd
    (fun n hn => (ht n hn).ne) env heq _ _ _ lin n hn).1
  have hM : s.M = tau.length := (pre.built hs).M_eq.trans pre.len.symm
  have hh : 0 < nd t (n + 1) - nd t n := sub_pos.2 (ht n hn)
  set h' := nd t (n + 1) - nd t n with hh'
  have hpow : ∀ m : ℕ, ((h' • (Matrix.of fun _ _ => la : Matrix (Fin 1) (Fin 1) ℝ)) ^ m) 0 0 = (-(h' * |la|)) ^ m := by
    intro m
    have : (h' • (Matrix.of fun _ _ => la : Matrix (Fin 1) (Fin 1) ℝ)) = Matrix.diagonal fun _ => -(h' * |la|) := by
      ext i j
      rw [Subsingleton.elim i j, Matrix.diagonal_apply_eq, Matrix.smul_apply, Matrix.of_apply, abs_of_neg hla, smul_eq_mul]
      ring
    rw [this, Matrix.diagonal_pow, Matrix.diagonal_apply_eq]
    rfl
  have h1 := congrFun h 0
  simp only [Matrix.mulVec, dotProduct, Fin.sum_univ_one, Matrix.sum_apply, Matrix.smul_apply, hpow, smul_eq_mul, hM] at h1
  exact hB (h' * |la|) _ _ (mul_nonneg hh.le (abs_nonneg _)) h1

/-- **C106** (Gauss and Radau) The factor `R` of C106_stiff is 0 for Radau nodes, so stiff components are damped; it is `(-1)^M` for Gauss
nodes, so stiff components persist, and change their sign in every step if the order `M` is odd. -/
theorem C106_factor (tau : List ℝ) : (IsRadau tau → (tau.map fun c => 1 - 1 / c).prod = 0) ∧
    (IsGauss tau → (tau.map fun c => 1 - 1 / c).prod = (-1) ^ tau.length) := by
  constructor
  · intro h
    exact List.prod_eq_zero (List.mem_map.2 ⟨1, h.1, by norm_num⟩)
  · intro h
    obtain ⟨ta, hl, hs, hin, hg, hu⟩ := C94_gauss tau.length
    have hperm := hu tau rfl h
    rw [(hperm.map _).prod_eq]
    have hsym := C94_symmetric ta hs hg
    have h1 : (nodePoly ta).eval 1 = (-1) ^ tau.length * (nodePoly ta).eval 0 := by
      have hprod : ∀ c : ℝ, (nodePoly ta).eval c = ∏ j ∈ Finset.range ta.length, (c - nd ta j) := by
        intro c
        have : ∀ l : List ℝ, (nodePoly l).eval c = ∏ j ∈ Finset.range l.length, (c - nd l j) := by
          intro l
          induction l with
          | nil => simp [nodePoly]
          | cons x l ih =>
            have e : nodePoly (x :: l) = (X - C x) * nodePoly l := by simp [nodePoly]
            rw [e, eval_mul, ih, List.length_cons, Finset.prod_range_succ', mul_comm]
            simp [nd]
        exact this ta
      rw [hprod, hprod, ← hl, ← Finset.prod_range_reflect]
      rw [Finset.prod_congr rfl fun j hj => by rw [hsym j (Finset.mem_range.1 hj), sub_sub_cancel]]
      rw [show (-1 : ℝ) ^ ta.length = ∏ j ∈ Finset.range ta.length, -1 by simp, ← Finset.prod_mul_distrib]
      exact Finset.prod_congr rfl fun j _ => by ring
    have h2 := nodePoly_ratio (tau := ta) fun c hc => (hin c hc).1
    have h0 : (nodePoly ta).eval 0 ≠ 0 := by
      have := nodePoly_sign (tau := ta) (fun c hc => (hin c hc).1) 0 (Nat.zero_le _)
      intro h
      simp [h] at this
    exact mul_right_cancel₀ h0 (h2.symm.trans h1)

end

/-! ## Non-vacuity -/

/-- `x' = -x` with one node `c` (explicit Euler for `c = 0`, midpoint for `c = 1/2`, implicit Euler for `c = 1`):
`(1 + c*h)*x[n+1] = (1 - (1-c)*h)*x[n]`. -/
example (freshI : String → ℕ) (hI : 7 ≤ freshI "xdot") (t : List ℝ) (two : 2 ≤ t.length) (c : ℝ)
    (ht : ∀ n < t.length - 1, nd t n ≠ nd t (n + 1)) : ∃ s,
    Scheme.new exFresh freshI (fun _ _ => .ok [c]) idealCsFunction decayO t 1 "legendre" none = .ok s ∧ s.N = t.length - 1 ∧
    ∀ env, (∀ v ∈ s.eq.vals env, v = 0) → ∀ n < s.N,
      (1 + c * (nd t (n + 1) - nd t n)) * s.x.val env 0 (n + 1) = (1 - (1 - c) * (nd t (n + 1) - nd t n)) * s.x.val env 0 n := by
  obtain ⟨F, pre⟩ := decay_pre freshI hI t [c] two (by simp)
  obtain ⟨s, hs⟩ := C26_constructed exFresh freshI _ _ _ _ _ _ _ _ _ _ _ _ false pre
  have b := pre.built hs
  have hM : s.M = 1 := b.M_eq
  refine ⟨s, hs, b.N_eq, fun env heq n hn => ?_⟩
  have lin : LinearPart (decayD freshI) (.sym (freshI "xdot") 1) (decayRes freshI) (fun _ _ => 1 : Fin 1 → ℕ → ℝ) (fun _ _ _ => 0)
      (Matrix.of fun _ _ => -1) := by
    refine ⟨fun e he a => ?_, fun _ _ _ _ _ _ => rfl⟩
    have := (decay_lipschitz freshI).explicit e |>.mp he 0 Nat.one_pos
    show ∑ i ∈ Finset.range 1, _ = ∑ b, _ * (∑ i ∈ Finset.range 1, _ - _)
    rw [Finset.sum_range_one, this, Fin.sum_univ_one, Finset.sum_range_one]
    simp [decayD, MXExpr.sym]
  have h := congrFun (C106_transfer exFresh freshI _ _ _ _ _ _ _ _ _ _ _ _ false s idealCsFunction_spec pre hs (by simp)
    (fun n hn => ht n (by rw [← b.N_eq]; exact hn)) env heq _ _ _ lin n hn).1 0
  have hnx : (decayD freshI).nx = 1 := rfl
  simp [Matrix.mulVec, dotProduct, hM, Finset.sum_range_succ, hnx] at h
  have e : ∀ k, t[k]?.getD 0 = nd t k := fun k => by simp [nd]
  rw [e, e] at h
  linarith

/-- The oscillator `x0' = x1`, `x1' = -x0` with the midpoint rule: `x0[n+1] - h/2*x1[n+1] = x0[n] + h/2*x1[n]`. -/
example (freshI : String → ℕ) (hI : 6 ≤ freshI "xdot") (t : List ℚ) (two : 2 ≤ t.length)
    (ht : ∀ n < t.length - 1, nd t n ≠ nd t (n + 1)) : ∃ s,
    Scheme.new exFresh freshI (fun _ _ => .ok [1 / 2]) idealCsFunction oscO t 1 "legendre" none = .ok s ∧ s.N = t.length - 1 ∧
    ∀ env, (∀ v ∈ s.eq.vals env, v = 0) → ∀ n < s.N,
      s.x.val env 0 (n + 1) - (nd t (n + 1) - nd t n) / 2 * s.x.val env 1 (n + 1) =
        s.x.val env 0 n + (nd t (n + 1) - nd t n) / 2 * s.x.val env 1 n := by
  obtain ⟨F, -, pre⟩ := osc_pre freshI hI t [1 / 2] two (by simp)
  obtain ⟨s, hs⟩ := C26_constructed exFresh freshI _ _ _ _ _ _ _ _ _ _ _ _ false pre
  have b := pre.built hs
  have hM : s.M = 1 := b.M_eq
  refine ⟨s, hs, b.N_eq, fun env heq n hn => ?_⟩
  have lin : LinearPart (oscD freshI) (.sym (freshI "xdot") 2) (oscRes freshI) (fun a i => if i = a.val then 1 else 0 : Fin 2 → ℕ → ℚ)
      (fun _ _ _ => 0) !![0, 1; -1, 0] := by
    refine ⟨fun e he a => ?_, fun _ _ _ _ _ _ => rfl⟩
    obtain ⟨h0, h1⟩ := (osc_residual freshI e).mp he
    show ∑ i ∈ Finset.range 2, _ = ∑ b, _ * (∑ i ∈ Finset.range 2, _ - _)
    fin_cases a <;> simp [Finset.sum_range_succ, Fin.sum_univ_two, oscD, MXExpr.sym, h0, h1]
  have h := congrFun (C106_transfer exFresh freshI _ _ _ _ _ _ _ _ _ _ _ _ false s idealCsFunction_spec pre hs (by simp)
    (fun n hn => ht n (by rw [← b.N_eq]; exact hn)) env heq _ _ _ lin n hn).1 0
  have hnx : (oscD freshI).nx = 2 := rfl
  simp [Matrix.mulVec, dotProduct, hM, Finset.sum_range_succ, hnx, Fin.sum_univ_two] at h
  have e : ∀ k, t[k]?.getD 0 = nd t k := fun k => by simp [nd]
  rw [e, e] at h
  linarith

/-- The factors of the two Gauss nodes and of the two Radau nodes, and of nodes that are neither. -/
example : (gaussTwo.map fun c => 1 - 1 / c).prod = 1 ∧ (([1 / 3, 1] : List ℝ).map fun c => 1 - 1 / c).prod = 0 ∧
    (([1 / 3] : List ℝ).map fun c => 1 - 1 / c).prod = -2 := by
  refine ⟨?_, (C106_factor _).1 isRadau_two, by norm_num⟩
  rw [(C106_factor gaussTwo).2 gaussTwo_order]
  norm_num [gaussTwo]

end CE
