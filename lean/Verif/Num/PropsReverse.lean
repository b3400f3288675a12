import Verif.Num.LemColumns
import Verif.Num.PropsInvariant

/-!
# Properties C76, C77: time reversal and splitting of the grid
-/

open Polynomial

namespace CE

variable {K : Type} [Field K]

/-- The nodes lie symmetrically in [0, 1]. -/
def SymmetricNodes (tau : List K) : Prop := ∀ j < tau.length, nd tau (tau.length - 1 - j) = 1 - nd tau j

section
variable [DecidableEq K] [CharZero K]

theorem pint_symm {tau : List K} (hd : tau.Nodup) (hsy : SymmetricNodes tau) {j : ℕ} (hj : j < tau.length) (x : K) :
    ((butcherPoly tau (tau.length - 1 - j)).polyint).eval x =
      ((butcherPoly tau j).polyint).eval 1 - ((butcherPoly tau j).polyint).eval (1 - x) := by
  have hder : derivative ((butcherPoly tau j).polyint).toPoly = Lagrange.basis (Finset.range tau.length) (nd tau) j := by
    rw [Poly1d.derivative_polyint, butcherPoly_eq, toPoly_lagrangePoly]
  have hcomp : derivative (-(((butcherPoly tau j).polyint).toPoly.comp (C (-1) * X + C 1))) =
      (derivative ((butcherPoly tau j).polyint).toPoly).comp (C (-1) * X + C 1) := by
    rw [derivative_neg, derivative_comp]
    simp
  have hdeg : ((derivative ((butcherPoly tau j).polyint).toPoly).comp (C (-1) * X + C 1)).degree < tau.length := by
    refine degree_comp_linear_lt _ _ ?_
    rw [hder, Lagrange.degree_basis (nd_injOn hd) (Finset.mem_range.mpr hj), Finset.card_range]
    exact_mod_cast Nat.sub_lt (by omega) Nat.one_pos
  have h := sum_pint hd hdeg hcomp x
  rw [show ∑ k ∈ Finset.range tau.length, ((butcherPoly tau k).polyint).eval x *
      ((derivative ((butcherPoly tau j).polyint).toPoly).comp (C (-1) * X + C 1)).eval (nd tau k) =
      ∑ k ∈ Finset.range tau.length, if k = tau.length - 1 - j then ((butcherPoly tau k).polyint).eval x else 0 from
    Finset.sum_congr rfl fun k hk => by
      have hk := Finset.mem_range.mp hk
      have hs : (C (-1) * X + C 1 : K[X]).eval (nd tau k) = nd tau (tau.length - 1 - k) := by
        rw [hsy k hk]; simp; ring
      rw [eval_comp, hs, hder]
      split_ifs with hkj
      · have : tau.length - 1 - k = j := by omega
        rw [this, Lagrange.eval_basis_self (nd_injOn hd) (Finset.mem_range.mpr hj), mul_one]
      · rw [Lagrange.eval_basis_of_ne (by omega) (Finset.mem_range.mpr (by omega)), mul_zero]] at h
  rw [Finset.sum_ite_eq' (Finset.range tau.length), if_pos (Finset.mem_range.mpr (by omega))] at h
  rw [h]
  simp only [eval_neg, eval_comp, eval_add, eval_mul, eval_C, eval_X, Poly1d.eval_eq]
  norm_num
  ring

theorem wb_symm {tau : List K} (hd : tau.Nodup) (hsy : SymmetricNodes tau) {j : ℕ} (hj : j < tau.length) :
    wb tau (tau.length - 1 - j) = wb tau j := by
  unfold wb
  rw [pint_symm hd hsy hj, sub_self, Poly1d.eval_eq _ (0 : K), Poly1d.eval_zero_polyint, sub_zero]

theorem wA_symm {tau : List K} (hd : tau.Nodup) (hsy : SymmetricNodes tau) {i j : ℕ} (hi : i < tau.length) (hj : j < tau.length) :
    wA tau (tau.length - 1 - i) (tau.length - 1 - j) = wb tau j - wA tau i j := by
  unfold wA wb
  rw [pint_symm hd hsy hj, hsy i hi]
  congr 2
  ring

/-- **C76** The tableau for symmetric nodes is symmetric. -/
theorem C76_tableau (tau : List K) (hd : tau.Nodup) (hsy : SymmetricNodes tau) :
    ∃ T, butcherTableuForCollocationPoints tau = .ok T ∧
      (∀ j < tau.length, T.b.e [tau.length - 1 - j] = T.b.e [j]) ∧
      ∀ i < tau.length, ∀ j < tau.length, T.A.e [tau.length - 1 - i, tau.length - 1 - j] = T.b.e [j] - T.A.e [i, j] := by
  refine ⟨_, butcher_ok tau, ?_, ?_⟩
  · intro j hj
    simp only [NdArray.vec, List.headD_cons]
    rw [nd_map_range _ hj, nd_map_range _ (by omega)]
    exact wb_symm hd hsy hj
  · intro i hi j hj
    simp only [NdArray.vec, NdArray.mat2, List.headD_cons, List.tail_cons]
    rw [nd_map_range _ hj]
    exact wA_symm hd hsy hi hj

theorem nd_reverse {t : List K} {n : ℕ} (hn : n < t.length) : nd t.reverse n = nd t (t.length - 1 - n) := by
  rw [nd_eq_getElem (by simpa using hn), nd_eq_getElem (by omega), List.getElem_reverse]

end

section
variable [DecidableEq K] [CharZero K] (fresh freshI : String → ℕ) (casadiPoints : ℕ → String → Except PyErr (List K))
    (csFunction : List (MXExpr K) → List (MXExpr K) → Except PyErr (CsFn K))
    (dae : DaeObj K) (t : List K) (order : ℕ) (method : String) (tdp_fun : Option (K → Mat K))
    (d : DaeObj K) (xdot res : MXExpr K) (tau : List K) (F : CsFn K) (rep : Bool) (s s' : Scheme K)

theorem SchemePre.reverse (pre : SchemePre freshI casadiPoints csFunction dae t order method tdp_fun d xdot res tau F) :
    SchemePre freshI casadiPoints csFunction dae t.reverse order method tdp_fun d xdot res tau F :=
  ⟨pre.impl, pre.wf, pre.p, pre.quad, by simpa using pre.two, pre.pos, pre.points, pre.len, pre.tdpFun, pre.fn⟩

/-- One direction of C76, with the values at the points. -/
theorem reverse_core (hcs : IsCsFunction csFunction)
    (pre : SchemePre freshI casadiPoints csFunction dae t order method tdp_fun d xdot res tau F)
    (hs : Scheme.new fresh freshI casadiPoints csFunction dae t order method tdp_fun rep = .ok s)
    (hs' : Scheme.new fresh freshI casadiPoints csFunction dae t.reverse order method tdp_fun rep = .ok s')
    (hd : tau.Nodup) (hsy : SymmetricNodes tau) (env env' : Env K)
    (hc : Columns s s' d rep env env' (fun n => s.N - n) (fun n => s.N - 1 - n) (fun c => s.N * s.M - 1 - c))
    (heq : ∀ v ∈ s.eq.vals env, v = 0) :
    (∀ v ∈ s'.eq.vals env', v = 0) ∧
    (∀ c < s.N * s.M, nd s'.tc c = nd s.tc (s.N * s.M - 1 - c)) ∧
    (∀ c < s.N * s.M, ∀ i < d.nx, s'.X.val env' i c = s.X.val env i (s.N * s.M - 1 - c)) ∧
    (∀ n ≤ s.N, ∀ k < d.nq, s'.q.val env' k n = s.q.val env k (s.N - n) - s.q.val env k s.N) := by
  have b := pre.built hs
  have pre' := pre.reverse
  have b' := pre'.built hs'
  have hN' : s'.N = s.N := by rw [b.N_eq, b'.N_eq, List.length_reverse]
  have hM' : s'.M = order := b'.M_eq
  have hM : s.M = order := b.M_eq
  have hlen := pre.len
  have hpos := pre.pos
  have h2 := pre.two
  rw [Scheme.eq_zero_iff pre b] at heq
  obtain ⟨hcoll, hcont, hpar⟩ := heq
  rw [← b.N_eq] at hcoll hcont hpar
  rw [hM] at hc ⊢
  have hNt : t.length = s.N + 1 := by rw [b.N_eq]; omega
  have hNt' : t.reverse.length - 1 = s.N := by rw [List.length_reverse, hNt]; rfl
  -- times
  have hbd : ∀ n ≤ s.N, nd t.reverse n = nd t (s.N - n) := by
    intro n hn
    rw [nd_reverse (by omega), hNt]; rfl
  -- index arithmetic
  have hidx : ∀ n < s.N, ∀ j < order, s.N * order - 1 - (n * order + j) = (s.N - 1 - n) * order + (order - 1 - j) := by
    intro n hn j hj
    obtain ⟨m, hm⟩ : ∃ m, s.N = n + 1 + m := ⟨s.N - n - 1, by omega⟩
    rw [hm, show n + 1 + m - 1 - n = m by omega, Nat.add_mul, Nat.add_mul]
    omega
  have htc : ∀ n < s.N, ∀ j < order, nd s'.tc (n * order + j) = nd s.tc (s.N * order - 1 - (n * order + j)) := by
    intro n hn j hj
    rw [hidx n hn j hj, b'.tc n j (by rw [hNt']; exact hn) hj, b.tc _ _ (by rw [← b.N_eq]; omega) (by omega), hbd n (by omega),
      hbd (n + 1) (by omega), show s.N - 1 - n + 1 = s.N - n by omega, show s.N - (n + 1) = s.N - 1 - n by omega]
    have := hsy j (by omega)
    rw [hlen] at this
    rw [this]; ring
  -- values of the variables
  have hx' : ∀ n ≤ s.N, ∀ i < d.nx, env' (fresh "x") i n = env (fresh "x") i (s.N - n) := by
    intro n hn i hi
    have := hc.x n (by rw [hN']; exact hn) i hi
    rw [b.x, b'.x] at this
    exact this
  have hk' : ∀ n < s.N, ∀ j < order, ∀ i < d.nx, env' (fresh "K") i (n * order + j) =
      env (fresh "K") i ((s.N - 1 - n) * order + (order - 1 - j)) := by
    intro n hn j hj i hi
    have := hc.k (n * order + j) (by rw [hN', hM']; exact block_lt hn hj) i hi
    rw [b.Kd, b'.Kd] at this
    rw [← hidx n hn j hj]
    exact this
  have hcont0 : ∀ n < s.N, ∀ i < d.nx, env (fresh "x") i (n + 1) = env (fresh "x") i n +
      (nd t (n + 1) - nd t n) * ∑ k ∈ Finset.range order, env (fresh "K") i (n * order + k) * wb tau k := by
    intro n hn i hi
    have := hcont n hn i hi
    rw [b.cont env i n (by rw [← b.N_eq]; exact hn)] at this
    linear_combination -this
  have hX : ∀ n < s.N, ∀ j < order, ∀ i < d.nx, s'.X.val env' i (n * order + j) =
      s.X.val env i (s.N * order - 1 - (n * order + j)) := by
    intro n hn j hj i hi
    rw [hidx n hn j hj, b'.X env' i n j (by rw [hNt']; exact hn) hj, b.X env i _ _ (by rw [← b.N_eq]; omega) (by omega),
      hx' n (by omega) i hi, hbd n (by omega), hbd (n + 1) (by omega), show s.N - (n + 1) = s.N - 1 - n by omega]
    have h1 := hcont0 (s.N - 1 - n) (by omega) i hi
    rw [show s.N - 1 - n + 1 = s.N - n by omega] at h1 ⊢
    have h3 : ∑ k ∈ Finset.range order, env' (fresh "K") i (n * order + k) * wA tau j k =
        ∑ k ∈ Finset.range order, env (fresh "K") i ((s.N - 1 - n) * order + k) * (wb tau k - wA tau (order - 1 - j) k) := by
      rw [← Finset.sum_range_reflect]
      refine Finset.sum_congr rfl fun k hk => ?_
      have hk := Finset.mem_range.mp hk
      rw [hk' n hn (order - 1 - k) (by omega) i hi, show order - 1 - (order - 1 - k) = k by omega]
      have := wA_symm hd hsy (i := order - 1 - j) (j := k) (by omega) (by omega)
      rw [hlen, show order - 1 - (order - 1 - j) = j by omega] at this
      rw [this]
    rw [h3, h1]
    simp only [mul_sub, Finset.sum_sub_distrib]
    ring
  have hsplit : ∀ c < s.N * order, ∃ n j, n < s.N ∧ j < order ∧ c = n * order + j := fun c hc =>
    ⟨c / order, c % order, Nat.div_lt_of_lt_mul (by rwa [Nat.mul_comm]), Nat.mod_lt _ hpos, (Nat.div_add_mod' c order).symm⟩
  have hout : ∀ c < s.N * order, (∀ i < res.rows, s'.eqCollocation.val env' i c = s.eqCollocation.val env i (s.N * order - 1 - c)) ∧
      (∀ i < d.nq, s'.quad.val env' i c = s.quad.val env i (s.N * order - 1 - c)) := by
    intro c hcl
    refine Columns.out hcs pre pre' b b' hc c (by rw [hNt']; exact hcl) (by rw [← b.N_eq]; omega) ?_ ?_ ?_
    · obtain ⟨n, j, hn, hj, rfl⟩ := hsplit c hcl
      rw [hidx n hn j hj, div_block hj, div_block (by omega)]
    · obtain ⟨n, j, hn, hj, rfl⟩ := hsplit c hcl
      exact htc n hn j hj
    · obtain ⟨n, j, hn, hj, rfl⟩ := hsplit c hcl
      exact hX n hn j hj
  refine ⟨(Scheme.eq_zero_iff pre' b' env').mpr ⟨?_, ?_, ?_⟩, ?_, ?_, ?_⟩
  · rw [hNt']
    intro c hcl i hi
    rw [(hout c hcl).1 i hi]
    exact hcoll _ (by omega) i hi
  · rw [hNt']
    intro n hn i hi
    rw [b'.cont env' i n (by rw [hNt']; exact hn), hx' n (by omega) i hi, hx' (n + 1) (by omega) i hi, hbd n (by omega),
      hbd (n + 1) (by omega), show s.N - (n + 1) = s.N - 1 - n by omega]
    have h1 := hcont0 (s.N - 1 - n) (by omega) i hi
    rw [show s.N - 1 - n + 1 = s.N - n by omega] at h1
    have h3 : ∑ k ∈ Finset.range order, env' (fresh "K") i (n * order + k) * wb tau k =
        ∑ k ∈ Finset.range order, env (fresh "K") i ((s.N - 1 - n) * order + k) * wb tau k := by
      rw [← Finset.sum_range_reflect]
      refine Finset.sum_congr rfl fun k hk => ?_
      have hk := Finset.mem_range.mp hk
      rw [hk' n hn (order - 1 - k) (by omega) i hi, show order - 1 - (order - 1 - k) = k by omega]
      have := wb_symm hd hsy (j := k) (by omega)
      rw [hlen] at this
      rw [this]
    rw [h3, h1]
    ring
  · rw [hNt']
    intro hr c hcl i hi
    have hp := hc.p
    rw [hr, hN', hM'] at hp
    simp only [if_true] at hp
    rw [hp c hcl i hi, hp 0 (by omega) i hi, hpar hr _ (by omega) i hi, hpar hr (s.N * order - 1 - 0) (by omega) i hi]
  · intro c hcl
    obtain ⟨n, j, hn, hj, rfl⟩ := hsplit c hcl
    exact htc n hn j hj
  · intro c hcl
    obtain ⟨n, j, hn, hj, rfl⟩ := hsplit c hcl
    exact hX n hn j hj
  · intro n
    induction n with
    | zero => intro _ k _; rw [b'.q_zero]; simp
    | succ n ih =>
      intro hn k hk
      rw [b'.q env' k n (by rw [hNt']; omega), ih (by omega) k hk, hbd n (by omega), hbd (n + 1) (by omega),
        show s.N - (n + 1) = s.N - 1 - n by omega]
      have h1 := b.q env k (s.N - 1 - n) (by rw [← b.N_eq]; omega)
      rw [show s.N - 1 - n + 1 = s.N - n by omega] at h1
      have h3 : ∑ j ∈ Finset.range order, s'.quad.val env' k (n * order + j) * wb tau j =
          ∑ j ∈ Finset.range order, s.quad.val env k ((s.N - 1 - n) * order + j) * wb tau j := by
        rw [← Finset.sum_range_reflect]
        refine Finset.sum_congr rfl fun j hj => ?_
        have hj := Finset.mem_range.mp hj
        rw [(hout (n * order + (order - 1 - j)) (block_lt (by omega) (by omega))).2 k hk, hidx n (by omega) _ (by omega),
          show order - 1 - (order - 1 - j) = j by omega]
        have := wb_symm hd hsy (j := j) (by omega)
        rw [hlen] at this
        rw [this]
      rw [h3, h1]
      ring

/-- **C76** With symmetric nodes the scheme on the reversed grid is the time reversal of the scheme: the equations hold for the
variables with reversed columns exactly if they hold for the variables; then times and states at the collocation points are
reversed and the quadratures run backwards from their final value. -/
theorem C76_reverse (hcs : IsCsFunction csFunction)
    (pre : SchemePre freshI casadiPoints csFunction dae t order method tdp_fun d xdot res tau F)
    (hs : Scheme.new fresh freshI casadiPoints csFunction dae t order method tdp_fun rep = .ok s)
    (hs' : Scheme.new fresh freshI casadiPoints csFunction dae t.reverse order method tdp_fun rep = .ok s')
    (hd : tau.Nodup) (hsy : SymmetricNodes tau) (env env' : Env K)
    (hc : Columns s s' d rep env env' (fun n => s.N - n) (fun n => s.N - 1 - n) (fun c => s.N * s.M - 1 - c)) :
    ((∀ v ∈ s'.eq.vals env', v = 0) ↔ ∀ v ∈ s.eq.vals env, v = 0) ∧
    ((∀ v ∈ s.eq.vals env, v = 0) →
      (∀ c < s.N * s.M, nd s'.tc c = nd s.tc (s.N * s.M - 1 - c)) ∧
      (∀ c < s.N * s.M, ∀ i < d.nx, s'.X.val env' i c = s.X.val env i (s.N * s.M - 1 - c)) ∧
      (∀ n ≤ s.N, ∀ k < d.nq, s'.q.val env' k n = s.q.val env k (s.N - n) - s.q.val env k s.N)) := by
  have key := reverse_core fresh freshI casadiPoints csFunction dae t order method tdp_fun d xdot res tau F rep s s' hcs pre hs hs'
    hd hsy env env' hc
  refine ⟨⟨fun h => ?_, fun h => (key h).1⟩, fun h => (key h).2⟩
  have b := pre.built hs
  have b' := pre.reverse.built hs'
  have hN : s'.N = s.N := by rw [b.N_eq, b'.N_eq, List.length_reverse]
  have hM : s'.M = s.M := by rw [b.M_eq, b'.M_eq]
  have hpos : 0 < s.N * s.M := by
    rw [b.N_eq, b.M_eq]
    have := pre.two
    have := pre.pos
    exact Nat.mul_pos (by omega) (by omega)
  have hN0 : 0 < s.N := Nat.pos_of_mul_pos_right hpos
  refine (reverse_core fresh freshI casadiPoints csFunction dae t.reverse order method tdp_fun d xdot res tau F rep s' s hcs
    pre.reverse hs' (by rw [List.reverse_reverse]; exact hs) hd hsy env' env ⟨?_, ?_, ?_, ?_, ?_⟩ h).1
  · intro n hn i hi
    rw [hc.x _ (by omega) i hi, hN, show s.N - (s.N - n) = n by omega]
  · intro c hcl i hi
    rw [hc.k _ (by rw [hN, hM]; omega) i hi, hN, hM, show s.N * s.M - 1 - (s.N * s.M - 1 - c) = c by omega]
  · intro c hcl i hi
    rw [hc.z _ (by rw [hN, hM]; omega) i hi, hN, hM, show s.N * s.M - 1 - (s.N * s.M - 1 - c) = c by omega]
  · intro n hn i hi
    rw [hc.u _ (by omega) i hi, hN, show s.N - 1 - (s.N - 1 - n) = n by omega]
  · intro c hcl i hi
    have := hc.p
    cases rep
    · simp only [Bool.false_eq_true, if_false] at *
      rw [this 0 (by omega) i hi, show c = 0 by omega]
    · simp only [if_true] at *
      rw [this _ (by rw [hN, hM]; omega) i hi, hN, hM, show s.N * s.M - 1 - (s.N * s.M - 1 - c) = c by omega]

/-- The part of a grid from point `a` on, of `n` intervals. -/
theorem nd_part {t t' : List K} {a m : ℕ} (h : t' = (t.drop a).take (m + 1)) {n : ℕ} (hn : n ≤ m) : nd t' n = nd t (a + n) := by
  subst h
  unfold nd
  rw [List.getD_eq_getElem?_getD, List.getD_eq_getElem?_getD, List.getElem?_take_of_lt (by omega), List.getElem?_drop]

/-- The attributes of the scheme on a part of the grid are the corresponding columns. -/
theorem part_core (hcs : IsCsFunction csFunction)
    (pre : SchemePre freshI casadiPoints csFunction dae t order method tdp_fun d xdot res tau F)
    (hs : Scheme.new fresh freshI casadiPoints csFunction dae t order method tdp_fun rep = .ok s) (t' : List K) (a m : ℕ)
    (ht' : t' = (t.drop a).take (m + 1)) (hm : 0 < m) (ham : a + m ≤ s.N)
    (hs' : Scheme.new fresh freshI casadiPoints csFunction dae t' order method tdp_fun rep = .ok s') (env env' : Env K)
    (hc : Columns s s' d rep env env' (fun n => a + n) (fun n => a + n) (fun c => a * s.M + c)) :
    SchemePre freshI casadiPoints csFunction dae t' order method tdp_fun d xdot res tau F ∧ t'.length - 1 = m ∧
    (∀ c < m * order, nd s'.tc c = nd s.tc (a * order + c)) ∧
    (∀ c < m * order, ∀ i < d.nx, s'.X.val env' i c = s.X.val env i (a * order + c)) ∧
    (∀ c < m * order, (∀ i < res.rows, s'.eqCollocation.val env' i c = s.eqCollocation.val env i (a * order + c)) ∧
      (∀ i < d.nq, s'.quad.val env' i c = s.quad.val env i (a * order + c))) ∧
    (∀ n < m, ∀ i < d.nx, s'.eqContinuity.val env' i n = s.eqContinuity.val env i (a + n)) ∧
    (∀ n ≤ m, ∀ k < d.nq, s.q.val env k (a + n) = s.q.val env k a + s'.q.val env' k n) := by
  have b := pre.built hs
  have h2 := pre.two
  have hpos := pre.pos
  have hN := b.N_eq
  have hM := b.M_eq
  have hlen : t'.length = m + 1 := by
    subst ht'
    rw [List.length_take, List.length_drop]
    omega
  have pre' : SchemePre freshI casadiPoints csFunction dae t' order method tdp_fun d xdot res tau F :=
    ⟨pre.impl, pre.wf, pre.p, pre.quad, by omega, pre.pos, pre.points, pre.len, pre.tdpFun, pre.fn⟩
  have b' := pre'.built hs'
  have hN' : s'.N = m := by rw [b'.N_eq]; omega
  have hM' := b'.M_eq
  have hlen1 : t'.length - 1 = m := by omega
  have hnd : ∀ n ≤ m, nd t' n = nd t (a + n) := fun n hn => nd_part ht' hn
  rw [hM] at hc
  have hidx : ∀ n j, a * order + (n * order + j) = (a + n) * order + j := by intro n j; ring
  have htc : ∀ n < m, ∀ j < order, nd s'.tc (n * order + j) = nd s.tc (a * order + (n * order + j)) := by
    intro n hn j hj
    rw [hidx, b'.tc n j (by omega) hj, b.tc _ _ (by omega) hj, hnd n (by omega), hnd (n + 1) (by omega)]
    rfl
  have hx' : ∀ n ≤ m, ∀ i < d.nx, env' (fresh "x") i n = env (fresh "x") i (a + n) := by
    intro n hn i hi
    have := hc.x n (by rw [hN']; exact hn) i hi
    rw [b.x, b'.x] at this
    exact this
  have hk' : ∀ n < m, ∀ j < order, ∀ i < d.nx, env' (fresh "K") i (n * order + j) =
      env (fresh "K") i ((a + n) * order + j) := by
    intro n hn j hj i hi
    have := hc.k (n * order + j) (by rw [hN', hM']; exact block_lt hn hj) i hi
    rw [b.Kd, b'.Kd] at this
    rw [← hidx]
    exact this
  have hX : ∀ n < m, ∀ j < order, ∀ i < d.nx, s'.X.val env' i (n * order + j) = s.X.val env i (a * order + (n * order + j)) := by
    intro n hn j hj i hi
    rw [hidx, b'.X env' i n j (by omega) hj, b.X env i _ _ (by omega) hj, hx' n (by omega) i hi, hnd n (by omega),
      hnd (n + 1) (by omega)]
    refine congrArg₂ _ rfl (congrArg₂ _ rfl (Finset.sum_congr rfl fun k hk => ?_))
    rw [hk' n hn k (Finset.mem_range.mp hk) i hi]
  have hsplit : ∀ c < m * order, ∃ n j, n < m ∧ j < order ∧ c = n * order + j := fun c hc =>
    ⟨c / order, c % order, Nat.div_lt_of_lt_mul (by rwa [Nat.mul_comm]), Nat.mod_lt _ hpos, (Nat.div_add_mod' c order).symm⟩
  have hout : ∀ c < m * order, (∀ i < res.rows, s'.eqCollocation.val env' i c = s.eqCollocation.val env i (a * order + c)) ∧
      (∀ i < d.nq, s'.quad.val env' i c = s.quad.val env i (a * order + c)) := by
    intro c hcl
    obtain ⟨n, j, hn, hj, rfl⟩ := hsplit c hcl
    refine Columns.out hcs pre pre' b b' hc _ (by rw [hlen1]; exact hcl) ?_ ?_ (htc n hn j hj) (hX n hn j hj)
    · show a * order + (n * order + j) < _
      rw [hidx]; exact block_lt (by omega) hj
    · show a + (n * order + j) / order = (a * order + (n * order + j)) / order
      rw [hidx, div_block hj, div_block hj]
  refine ⟨pre', hlen1, ?_, ?_, hout, ?_, ?_⟩
  · intro c hcl
    obtain ⟨n, j, hn, hj, rfl⟩ := hsplit c hcl
    exact htc n hn j hj
  · intro c hcl
    obtain ⟨n, j, hn, hj, rfl⟩ := hsplit c hcl
    exact hX n hn j hj
  · intro n hn i hi
    rw [b'.cont env' i n (by omega), b.cont env i _ (by omega), hx' n (by omega) i hi, hx' (n + 1) (by omega) i hi, hnd n (by omega),
      hnd (n + 1) (by omega)]
    refine congrArg₂ _ (congrArg₂ _ rfl (congrArg₂ _ rfl (Finset.sum_congr rfl fun k hk => ?_))) rfl
    rw [hk' n hn k (Finset.mem_range.mp hk) i hi]
  · intro n
    induction n with
    | zero => intro _ k _; rw [b'.q_zero]; simp
    | succ n ih =>
      intro hn k hk
      have h1 := b.q env k (a + n) (by omega)
      rw [← Nat.add_assoc, h1, ih (by omega) k hk, b'.q env' k n (by omega), hnd n (by omega), hnd (n + 1) (by omega), add_assoc]
      refine congrArg₂ _ rfl (congrArg₂ _ rfl (congrArg₂ _ rfl (Finset.sum_congr rfl fun j hj => ?_)))
      rw [(hout (n * order + j) (block_lt (by omega) (Finset.mem_range.mp hj))).2 k hk, hidx]

/-- **C77** The scheme on a grid is the scheme on its first `m` intervals followed by the scheme on the others: the equations
hold exactly if they hold for both parts (and the parts have the same parameter), where the last state of the first part is the
first state of the second.  The states at the collocation points are those of the parts, and the quadratures add up. -/
theorem C77_split (hcs : IsCsFunction csFunction)
    (pre : SchemePre freshI casadiPoints csFunction dae t order method tdp_fun d xdot res tau F)
    (hs : Scheme.new fresh freshI casadiPoints csFunction dae t order method tdp_fun rep = .ok s)
    (m : ℕ) (hm : 0 < m) (hmN : m < s.N) (s₁ s₂ : Scheme K)
    (hs₁ : Scheme.new fresh freshI casadiPoints csFunction dae (t.take (m + 1)) order method tdp_fun rep = .ok s₁)
    (hs₂ : Scheme.new fresh freshI casadiPoints csFunction dae (t.drop m) order method tdp_fun rep = .ok s₂)
    (env env₁ env₂ : Env K) (hc₁ : Columns s s₁ d rep env env₁ id id id)
    (hc₂ : Columns s s₂ d rep env env₂ (fun n => m + n) (fun n => m + n) (fun c => m * s.M + c)) :
    ((∀ v ∈ s.eq.vals env, v = 0) ↔ (∀ v ∈ s₁.eq.vals env₁, v = 0) ∧ (∀ v ∈ s₂.eq.vals env₂, v = 0) ∧
      ∀ i < d.np, s₁.p.val env₁ i 0 = s₂.p.val env₂ i 0) ∧
    (s₁.N = m ∧ s₁.N + s₂.N = s.N) ∧
    (∀ c < s₁.N * s.M, ∀ i < d.nx, s.X.val env i c = s₁.X.val env₁ i c) ∧
    (∀ c < s₂.N * s.M, ∀ i < d.nx, s.X.val env i (m * s.M + c) = s₂.X.val env₂ i c) ∧
    (∀ n ≤ s₁.N, ∀ k < d.nq, s.q.val env k n = s₁.q.val env₁ k n) ∧
    (∀ n ≤ s₂.N, ∀ k < d.nq, s.q.val env k (m + n) = s₁.q.val env₁ k m + s₂.q.val env₂ k n) := by
  have b := pre.built hs
  have h2 := pre.two
  have hpos := pre.pos
  have hN := b.N_eq
  have hM := b.M_eq
  have e1 : t.take (m + 1) = (t.drop 0).take (m + 1) := rfl
  have e2 : t.drop m = (t.drop m).take (s.N - m + 1) := by
    rw [List.take_of_length_le]; rw [List.length_drop]; omega
  have hc₁' : Columns s s₁ d rep env env₁ (fun n => 0 + n) (fun n => 0 + n) (fun c => 0 * s.M + c) := by
    simpa [Function.id_def] using hc₁
  obtain ⟨p₁, l₁, tc₁, X₁, o₁, c₁, q₁⟩ := part_core fresh freshI casadiPoints csFunction dae t order method tdp_fun d xdot res tau F
    rep s s₁ hcs pre hs _ 0 m e1 hm (by omega) hs₁ env env₁ hc₁'
  obtain ⟨p₂, l₂, tc₂, X₂, o₂, c₂, q₂⟩ := part_core fresh freshI casadiPoints csFunction dae t order method tdp_fun d xdot res tau F
    rep s s₂ hcs pre hs _ m (s.N - m) e2 (by omega) (by omega) hs₂ env env₂ hc₂
  have b₁ := p₁.built hs₁
  have b₂ := p₂.built hs₂
  have hN₁ : s₁.N = m := by rw [b₁.N_eq, l₁]
  have hN₂ : s₂.N = s.N - m := by rw [b₂.N_eq, l₂]
  have hsum : s.N * order = m * order + (s.N - m) * order := by rw [← Nat.add_mul]; congr 1; omega
  have hmo : 0 < m * order := Nat.mul_pos hm hpos
  have hno : 0 < (s.N - m) * order := Nat.mul_pos (by omega) hpos
  refine ⟨?_, ⟨hN₁, by omega⟩, ?_, ?_, ?_, ?_⟩
  · rw [Scheme.eq_zero_iff pre b, Scheme.eq_zero_iff p₁ b₁, Scheme.eq_zero_iff p₂ b₂, ← hN, l₁, l₂]
    have hp₁ := hc₁.p
    have hp₂ := hc₂.p
    rw [hN₁, b₁.M_eq] at hp₁
    rw [hN₂, b₂.M_eq, hM] at hp₂
    simp only [Nat.zero_mul, Nat.zero_add] at o₁ c₁
    have hp0 : ∀ i < d.np, s₁.p.val env₁ i 0 = s.p.val env i 0 := by
      intro i hi
      rw [hp₁ 0 (by split_ifs; exacts [hmo, Nat.one_pos]) i hi]
      cases rep <;> rfl
    have hp2 : ∀ i < d.np, s₂.p.val env₂ i 0 = s.p.val env i (if rep then m * order else 0) := by
      intro i hi
      rw [hp₂ 0 (by split_ifs; exacts [hno, Nat.one_pos]) i hi]
      cases rep <;> rfl
    constructor
    · rintro ⟨h1, h2, h3⟩
      refine ⟨⟨?_, ?_, ?_⟩, ⟨?_, ?_, ?_⟩, ?_⟩
      · intro c hcl i hi
        rw [(o₁ c hcl).1 i hi]
        exact h1 c (by omega) i hi
      · intro n hn i hi
        rw [c₁ n hn i hi]
        exact h2 n (by omega) i hi
      · intro hr c hcl i hi
        subst hr
        simp only [if_true] at hp₁
        rw [hp0 i hi, hp₁ c hcl i hi]
        exact h3 rfl c (by omega) i hi
      · intro c hcl i hi
        rw [(o₂ c hcl).1 i hi]
        exact h1 _ (by omega) i hi
      · intro n hn i hi
        rw [c₂ n hn i hi]
        exact h2 _ (by omega) i hi
      · intro hr c hcl i hi
        subst hr
        simp only [if_true] at hp₂ hp2
        rw [hp2 i hi, hp₂ c hcl i hi, h3 rfl (m * order + c) (by omega) i hi, h3 rfl (m * order) (by omega) i hi]
      · intro i hi
        rw [hp0 i hi, hp2 i hi]
        split_ifs with hr
        · rw [h3 hr (m * order) (by omega) i hi]
        · rfl
    · rintro ⟨⟨h11, h12, h13⟩, ⟨h21, h22, h23⟩, hpp⟩
      refine ⟨?_, ?_, ?_⟩
      · intro c hcl i hi
        by_cases hlt : c < m * order
        · rw [← (o₁ c hlt).1 i hi]
          exact h11 c hlt i hi
        · have := (o₂ (c - m * order) (by omega)).1 i hi
          rw [show m * order + (c - m * order) = c by omega] at this
          rw [← this]
          exact h21 _ (by omega) i hi
      · intro n hn i hi
        by_cases hlt : n < m
        · rw [← c₁ n hlt i hi]
          exact h12 n hlt i hi
        · have := c₂ (n - m) (by omega) i hi
          rw [show m + (n - m) = n by omega] at this
          rw [← this]
          exact h22 _ (by omega) i hi
      · intro hr c hcl i hi
        subst hr
        simp only [if_true] at hp₁ hp₂ hp2
        by_cases hlt : c < m * order
        · have := h13 rfl c hlt i hi
          rw [hp0 i hi, hp₁ c hlt i hi] at this
          exact this
        · have h5 := h23 rfl (c - m * order) (by omega) i hi
          rw [hp₂ (c - m * order) (by omega) i hi, ← hpp i hi, hp0 i hi, show m * order + (c - m * order) = c by omega] at h5
          exact h5
  · rw [hN₁, hM]
    intro c hcl i hi
    rw [X₁ c hcl i hi, Nat.zero_mul, Nat.zero_add]
  · rw [hN₂, hM]
    intro c hcl i hi
    rw [X₂ c hcl i hi]
  · rw [hN₁]
    intro n hn k hk
    have := q₁ n hn k hk
    rw [Nat.zero_add, b.q_zero, zero_add] at this
    exact this
  · rw [hN₂]
    intro n hn k hk
    have h5 := q₁ m le_rfl k hk
    rw [Nat.zero_add, b.q_zero, zero_add] at h5
    rw [q₂ n hn k hk, h5]

end

/-! ## Non-vacuity: the oscillator of `PropsInvariant` -/

/-- The step of the midpoint rule, backwards. -/
def oscBack : Env ℚ := fun id i j =>
  if id = 0 then (if i = 0 then nd [3 / 5, 1] j else nd [-4 / 5, 0] j)
  else if id = 1 then (if i = 0 then -2 / 5 else -4 / 5) else 0

/-- Two steps of the midpoint rule. -/
def oscTwo : Env ℚ := fun id i j =>
  if id = 0 then (if i = 0 then nd [1, 3 / 5, -7 / 25] j else nd [0, -4 / 5, -24 / 25] j)
  else if id = 1 then (if i = 0 then nd [-2 / 5, -22 / 25] j else nd [-4 / 5, -4 / 25] j) else 0

/-- The second of them. -/
def oscSecond : Env ℚ := fun id i j =>
  if id = 0 then (if i = 0 then nd [3 / 5, -7 / 25] j else nd [-4 / 5, -24 / 25] j)
  else if id = 1 then (if i = 0 then -22 / 25 else -4 / 25) else 0

theorem symmetric_midpoint : SymmetricNodes ([1 / 2] : List ℚ) := by
  intro j hj
  have : j = 0 := by simpa using hj
  subst this
  norm_num

/-- C76: the reversed step solves the equations on the grid [1, 0]. -/
example (freshI : String → ℕ) (hI : 6 ≤ freshI "xdot") : ∃ s s',
    Scheme.new exFresh freshI (fun _ _ => .ok [1 / 2]) idealCsFunction oscO [0, 1] 1 "legendre" none = .ok s ∧
    Scheme.new exFresh freshI (fun _ _ => .ok [1 / 2]) idealCsFunction oscO [1, 0] 1 "legendre" none = .ok s' ∧
    (∀ v ∈ s'.eq.vals oscBack, v = 0) ∧ s'.x.val oscBack 0 0 = 3 / 5 ∧ s'.x.val oscBack 0 1 = 1 ∧
    s'.q.val oscBack 0 1 = -s.q.val oscEnv 0 1 := by
  obtain ⟨F, -, pre⟩ := osc_pre freshI hI [0, 1] [1 / 2] (by simp) (by simp)
  obtain ⟨s, hs⟩ := C26_constructed exFresh freshI _ _ _ _ _ _ _ _ _ _ _ _ false pre
  obtain ⟨s', hs'⟩ := C26_constructed exFresh freshI _ _ _ _ _ _ _ _ _ _ _ _ false pre.reverse
  have hd : ([1 / 2] : List ℚ).Nodup := by simp
  obtain ⟨hN, ht, hx, heq⟩ := osc_step freshI (1 / 2) 0 1 (by norm_num) F (by decide +kernel) (by decide +kernel) pre s hs oscEnv
    (by norm_num [oscEnv]) (by norm_num [oscEnv]) (by norm_num [oscEnv]) (by norm_num [oscEnv])
  have b := pre.built hs
  have b' := pre.reverse.built hs'
  have hx' : ∀ i j, s'.x.val oscBack i j = oscBack 0 i j := fun i j => by rw [b'.x]; rfl
  have hN' : s'.N = 1 := b'.N_eq
  have hM : s.M = 1 := b.M_eq
  have hM' : s'.M = 1 := b'.M_eq
  have hcol : Columns s s' (oscD freshI) false oscEnv oscBack (fun n => s.N - n) (fun n => s.N - 1 - n) (fun c => s.N * s.M - 1 - c) := by
    refine ⟨?_, ?_, ?_, ?_, ?_⟩
    · intro n hn i _
      rw [hN'] at hn
      rw [hx, hx', hN]
      interval_cases n <;> by_cases h0 : i = 0 <;> simp [oscBack, oscEnv, h0]
    · intro c hc i _
      rw [hN', hM'] at hc
      have hc : c = 0 := by omega
      subst hc
      rw [b.Kd, b'.Kd, hN, hM]
      show oscBack (exFresh "K") i 0 = oscEnv (exFresh "K") i 0
      rw [show exFresh "K" = 1 from rfl]
      by_cases h0 : i = 0 <;> simp [oscBack, oscEnv, h0]
    · intro c _ i hi; exact absurd hi (Nat.not_lt_zero _)
    · intro c _ i hi; exact absurd hi (Nat.not_lt_zero _)
    · intro c _ i hi; exact absurd hi (Nat.not_lt_zero _)
  have h76 := C76_reverse exFresh freshI _ _ _ _ _ _ _ _ _ _ _ _ false s s' idealCsFunction_spec pre hs hs' hd symmetric_midpoint
    oscEnv oscBack hcol
  refine ⟨s, s', hs, hs', h76.1.mpr heq, by rw [hx']; norm_num [oscBack], by rw [hx']; norm_num [oscBack], ?_⟩
  have hq := (h76.2 heq).2.2 1 (by rw [hN]) 0 (by show 0 < 1; omega)
  rw [hq, hN, b.q_zero, zero_sub]

/-- C77: two steps solve the equations on the grid [0, 1, 2], because each of them solves its own. -/
example (freshI : String → ℕ) (hI : 6 ≤ freshI "xdot") : ∃ s,
    Scheme.new exFresh freshI (fun _ _ => .ok [1 / 2]) idealCsFunction oscO [0, 1, 2] 1 "legendre" none = .ok s ∧
    (∀ v ∈ s.eq.vals oscTwo, v = 0) ∧ s.x.val oscTwo 0 2 = -7 / 25 := by
  obtain ⟨F, -, pre⟩ := osc_pre freshI hI [0, 1, 2] [1 / 2] (by simp) (by simp)
  obtain ⟨F₁, -, p₁⟩ := osc_pre freshI hI [0, 1] [1 / 2] (by simp) (by simp)
  obtain ⟨F₂, -, p₂⟩ := osc_pre freshI hI [1, 2] [1 / 2] (by simp) (by simp)
  obtain ⟨s, hs⟩ := C26_constructed exFresh freshI _ _ _ _ _ _ _ _ _ _ _ _ false pre
  obtain ⟨s₁, hs₁⟩ := C26_constructed exFresh freshI _ _ _ _ _ _ _ _ _ _ _ _ false p₁
  obtain ⟨s₂, hs₂⟩ := C26_constructed exFresh freshI _ _ _ _ _ _ _ _ _ _ _ _ false p₂
  obtain ⟨hN₁, -, hx₁, heq₁⟩ := osc_step freshI (1 / 2) 0 1 (by norm_num) F₁ (by decide +kernel) (by decide +kernel) p₁ s₁ hs₁ oscEnv
    (by norm_num [oscEnv]) (by norm_num [oscEnv]) (by norm_num [oscEnv]) (by norm_num [oscEnv])
  obtain ⟨hN₂, -, hx₂, heq₂⟩ := osc_step freshI (1 / 2) 1 2 (by norm_num) F₂ (by decide +kernel) (by decide +kernel) p₂ s₂ hs₂ oscSecond
    (by norm_num [oscSecond]) (by norm_num [oscSecond]) (by norm_num [oscSecond]) (by norm_num [oscSecond])
  have b := pre.built hs
  have b₁ := p₁.built hs₁
  have b₂ := p₂.built hs₂
  have hx : ∀ i j, s.x.val oscTwo i j = oscTwo 0 i j := fun i j => by rw [b.x]; rfl
  have hN : s.N = 2 := b.N_eq
  have hM : s.M = 1 := b.M_eq
  have hM₁ : s₁.M = 1 := b₁.M_eq
  have hM₂ : s₂.M = 1 := b₂.M_eq
  have hcol₁ : Columns s s₁ (oscD freshI) false oscTwo oscEnv id id id := by
    refine ⟨?_, ?_, ?_, ?_, ?_⟩
    · intro n hn i _
      rw [hN₁] at hn
      rw [hx, hx₁]
      interval_cases n <;> by_cases h0 : i = 0 <;> simp [oscTwo, oscEnv, h0]
    · intro c hc i _
      rw [hN₁, hM₁] at hc
      have hc : c = 0 := by omega
      subst hc
      rw [b.Kd, b₁.Kd]
      show oscEnv (exFresh "K") i 0 = oscTwo (exFresh "K") i 0
      rw [show exFresh "K" = 1 from rfl]
      by_cases h0 : i = 0 <;> simp [oscTwo, oscEnv, h0]
    · intro c _ i hi; exact absurd hi (Nat.not_lt_zero _)
    · intro c _ i hi; exact absurd hi (Nat.not_lt_zero _)
    · intro c _ i hi; exact absurd hi (Nat.not_lt_zero _)
  have hcol₂ : Columns s s₂ (oscD freshI) false oscTwo oscSecond (fun n => 1 + n) (fun n => 1 + n) (fun c => 1 * s.M + c) := by
    refine ⟨?_, ?_, ?_, ?_, ?_⟩
    · intro n hn i _
      rw [hN₂] at hn
      rw [hx, hx₂]
      interval_cases n <;> by_cases h0 : i = 0 <;> simp [oscTwo, oscSecond, h0]
    · intro c hc i _
      rw [hN₂, hM₂] at hc
      have hc : c = 0 := by omega
      subst hc
      rw [b.Kd, b₂.Kd, hM]
      show oscSecond (exFresh "K") i 0 = oscTwo (exFresh "K") i 1
      rw [show exFresh "K" = 1 from rfl]
      by_cases h0 : i = 0 <;> simp [oscTwo, oscSecond, h0]
    · intro c _ i hi; exact absurd hi (Nat.not_lt_zero _)
    · intro c _ i hi; exact absurd hi (Nat.not_lt_zero _)
    · intro c _ i hi; exact absurd hi (Nat.not_lt_zero _)
  have h77 := C77_split exFresh freshI _ _ _ _ _ _ _ _ _ _ _ _ false s idealCsFunction_spec pre hs 1 Nat.one_pos (by omega) s₁ s₂ hs₁ hs₂
    oscTwo oscEnv oscSecond hcol₁ hcol₂
  exact ⟨s, hs, h77.1.mpr ⟨heq₁, heq₂, fun i hi => absurd hi (Nat.not_lt_zero _)⟩, by rw [hx]; norm_num [oscTwo]⟩

/-- C76: two symmetric nodes. -/
example : ∃ T, butcherTableuForCollocationPoints ([1 / 4, 3 / 4] : List ℚ) = .ok T ∧ T.b.e [1] = T.b.e [0] ∧
    T.A.e [1, 1] = T.b.e [0] - T.A.e [0, 0] ∧ T.A.e [1, 0] = T.b.e [1] - T.A.e [0, 1] := by
  obtain ⟨T, h1, h2, h3⟩ := C76_tableau ([1 / 4, 3 / 4] : List ℚ) (by norm_num) (by
    intro j hj
    have : j = 0 ∨ j = 1 := by simp at hj; omega
    rcases this with rfl | rfl <;> norm_num [nd])
  exact ⟨T, h1, h2 0 (by simp), h3 0 (by simp) 0 (by simp), h3 0 (by simp) 1 (by simp)⟩

end CE
