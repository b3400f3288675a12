import Verif.Num.PropsVariation

/-!
# Property C134: gradients by the adjoint equations

The adjoint model of a model has its states and as many adjoint states; its quadratures are the sensitivities to inputs and
parameters.  With Gauss nodes, collocation of the adjoint model gives the exact derivatives of the solutions of the collocation
equations of the model with respect to initial state, inputs and parameters.
-/

open Filter Topology

namespace CE

/-- Assignments `e ε` on which the residual vanishes; states, their time derivatives, inputs and parameters have the derivatives
`v`, `w`, `μ`, `π`; time and time-dependent parameters do not depend on `ε`. -/
structure Perturbation (d : DaeObj ℝ) (xdot res : MXExpr ℝ) (tdp_fun : Option (ℝ → Mat ℝ)) (e : ℝ → Env ℝ) (v w μ π : ℕ → ℝ) : Prop where
  x : ∀ i < d.nx, HasDerivAt (fun ε => d.x.val (e ε) i 0) (v i) 0
  xdot : ∀ i < d.nx, HasDerivAt (fun ε => xdot.val (e ε) i 0) (w i) 0
  z : ∀ i < d.nz, DifferentiableAt ℝ (fun ε => d.z.val (e ε) i 0) 0
  u : ∀ i < d.nu, HasDerivAt (fun ε => d.u.val (e ε) i 0) (μ i) 0
  p : ∀ i < d.np, HasDerivAt (fun ε => d.p.val (e ε) i 0) (π i) 0
  t : ∀ ε, d.t.val (e ε) 0 0 = d.t.val (e 0) 0 0
  tdp : ∀ f, tdp_fun = some f → ∀ ε, ∀ i < d.tdp.rows, ∀ j < d.tdp.cols, d.tdp.val (e ε) i j = (f (d.t.val (e 0) 0 0)).e i j
  residual : ∀ᶠ ε in 𝓝 0, ResidualZero res (e ε)

/-- `d'` is an adjoint model of `d`: its solutions contain solutions of `d`, and along a perturbation of that solution the product of
the adjoint states and the derivatives of the states changes at the rate of its quadratures (`nu` of them for the inputs, `np` for
the parameters) times the derivatives of inputs and parameters. -/
structure Adjoint (d d' : DaeObj ℝ) (xdot xdot' res res' : MXExpr ℝ) (tdp_fun : Option (ℝ → Mat ℝ)) : Prop where
  nx : d'.nx = d.nx + d.nx
  nz : d.nz ≤ d'.nz
  nu : d'.nu = d.nu
  np : d'.np = d.np
  nq : d'.nq = d.nu + d.np
  base : ∀ e e', FirstHalf d d' xdot xdot' tdp_fun e e' → ResidualZero res' e' → ResidualZero res e
  law : ∀ e e' v w μ π, Perturbation d xdot res tdp_fun e v w μ π → FirstHalf d d' xdot xdot' tdp_fun (e 0) e' → ResidualZero res' e' →
    ∑ i ∈ Finset.range d.nx, (xdot'.val e' (d.nx + i) 0 * v i + d'.x.val e' (d.nx + i) 0 * w i) =
      ∑ k ∈ Finset.range d.nu, d'.quad.val e' k 0 * μ k + ∑ k ∈ Finset.range d.np, d'.quad.val e' (d.nu + k) 0 * π k

/-- The variables of a scheme solve the collocation equations and depend differentiably on a parameter. -/
structure DiffVars (s : Scheme ℝ) (d : DaeObj ℝ) (rep : Bool) (env : ℝ → Env ℝ) : Prop where
  eq : ∀ᶠ ε in 𝓝 0, ∀ v ∈ s.eq.vals (env ε), v = 0
  x : ∀ n ≤ s.N, ∀ i < d.nx, DifferentiableAt ℝ (fun ε => s.x.val (env ε) i n) 0
  k : ∀ c < s.N * s.M, ∀ i < d.nx, DifferentiableAt ℝ (fun ε => s.Kd.val (env ε) i c) 0
  z : ∀ c < s.N * s.M, ∀ i < d.nz, DifferentiableAt ℝ (fun ε => s.Z.val (env ε) i c) 0
  u : ∀ n < s.N, ∀ i < d.nu, DifferentiableAt ℝ (fun ε => s.u.val (env ε) i n) 0
  p : ∀ c < (if rep then s.N * s.M else 1), ∀ i < d.np, DifferentiableAt ℝ (fun ε => s.p.val (env ε) i c) 0

/-- The variables of the scheme `s'` extend those of `s`. -/
structure ExtendsVars (s s' : Scheme ℝ) (d : DaeObj ℝ) (rep : Bool) (env env' : Env ℝ) : Prop where
  x : ∀ n ≤ s.N, ∀ i < d.nx, s'.x.val env' i n = s.x.val env i n
  k : ∀ c < s.N * s.M, ∀ i < d.nx, s'.Kd.val env' i c = s.Kd.val env i c
  z : ∀ c < s.N * s.M, ∀ i < d.nz, s'.Z.val env' i c = s.Z.val env i c
  u : ∀ n < s.N, ∀ i < d.nu, s'.u.val env' i n = s.u.val env i n
  p : ∀ c < (if rep then s.N * s.M else 1), ∀ i < d.np, s'.p.val env' i c = s.p.val env i c

section

variable (fresh fresh' freshI freshI' : String → ℕ) (casadiPoints : ℕ → String → Except PyErr (List ℝ))
    (csFunction : List (MXExpr ℝ) → List (MXExpr ℝ) → Except PyErr (CsFn ℝ))
    (dae dae' : DaeObj ℝ) (t : List ℝ) (order : ℕ) (method : String) (tdp_fun : Option (ℝ → Mat ℝ))
    (d d' : DaeObj ℝ) (xdot res xdot' res' : MXExpr ℝ) (tau : List ℝ) (F F' : CsFn ℝ) (rep : Bool) (s s' : Scheme ℝ)

/-- The assignments at a collocation point of variables that extend others. -/
theorem firstHalf_atPoint {env env' e e' : Env ℝ}
    (pre : SchemePre freshI casadiPoints csFunction dae t order method tdp_fun d xdot res tau F)
    (pre' : SchemePre freshI' casadiPoints csFunction dae' t order method tdp_fun d' xdot' res' tau F')
    (b : s.Built fresh t order tdp_fun rep d xdot res tau F) (b' : s'.Built fresh' t order tdp_fun rep d' xdot' res' tau F')
    (hA : Adjoint d d' xdot xdot' res res' tdp_fun) (hv : ExtendsVars s s' d rep env env')
    {n j : ℕ} (hn : n < t.length - 1) (hj : j < order) (hat : AtPoint s d xdot tdp_fun rep env e (n * order + j))
    (hat' : AtPoint s' d' xdot' tdp_fun rep env' e' (n * order + j)) : FirstHalf d d' xdot xdot' tdp_fun e e' := by
  have hc : n * order + j < (t.length - 1) * order := block_lt hn hj
  have hcs2 : n * order + j < s.N * s.M := by rw [b.N_eq, b.M_eq]; exact hc
  have hnp : d.np = d.p.rows := by simp [DaeObj.np, MXExpr.numel, pre.p]
  have hnp' : d'.np = d'.p.rows := by simp [DaeObj.np, MXExpr.numel, pre'.p]
  have hnx' := pre'.wf.nx
  have hnz' := pre'.wf.nz
  have hnu' := pre'.wf.nu
  have hnz := hA.nz
  rw [hA.nx] at hnx'
  rw [hA.nu] at hnu'
  rw [hA.np] at hnp'
  have htc : nd s'.tc (n * order + j) = nd s.tc (n * order + j) := by rw [b.tc n j hn hj, b'.tc n j hn hj]
  refine ⟨fun i hi => ?_, fun i hi => ?_, fun i hi => ?_, fun i hi => ?_, fun i hi => ?_, ?_, fun f hf i hi l hl => ?_,
    fun f hf i hi l hl => ?_⟩
  · rw [hat'.xdot i (by omega), hat.xdot i (by rw [← pre.wf.nx]; exact hi)]
    exact hv.k _ hcs2 i hi
  · rw [hat'.x i (by omega), hat.x i (by rw [← pre.wf.nx]; exact hi), b'.X _ i n j hn hj, b.X _ i n j hn hj]
    have hx := hv.x n (by rw [b.N_eq]; omega) i hi
    have hkk := fun l (hl : l < order) => hv.k (n * order + l) (by rw [b.N_eq, b.M_eq]; exact block_lt hn hl) i hi
    rw [b.x, b'.x] at hx
    rw [b.Kd, b'.Kd] at hkk
    change env' (fresh' "x") i n = env (fresh "x") i n at hx
    rw [hx]
    congr 2
    exact Finset.sum_congr rfl fun l hl => by
      have := hkk l (Finset.mem_range.mp hl)
      change env' (fresh' "K") i (n * order + l) = env (fresh "K") i (n * order + l) at this
      rw [this]
  · rw [hat'.z i (by omega), hat.z i (by rw [← pre.wf.nz]; exact hi)]
    exact hv.z _ hcs2 i hi
  · rw [hat'.u i (by omega), hat.u i (by rw [← pre.wf.nu]; exact hi), b.M_eq, b'.M_eq, div_block hj]
    exact hv.u n (by rw [b.N_eq]; exact hn) i hi
  · rw [hat'.p i (by omega), hat.p i (by rw [← hnp]; exact hi)]
    exact hv.p _ (by split_ifs; exacts [hcs2, Nat.one_pos]) i hi
  · rw [hat.t, hat'.t, htc]
  · rw [hat.tdp f hf i hi l hl, hat'.t, htc]
  · rw [hat'.tdp f hf i hi l hl, hat'.t]

/-- **C134** With Gauss nodes, a solution of the collocation equations of the adjoint model gives the derivatives of the solutions
of the collocation equations of the model: `λ[n]' dx[n] = λ[0]' dx[0] + sum (q[m+1] - q[m])' du[m] + q[n]' dp`. -/
theorem C134_adjoint (hcs : IsCsFunction csFunction)
    (pre : SchemePre freshI casadiPoints csFunction dae t order method tdp_fun d xdot res tau F)
    (pre' : SchemePre freshI' casadiPoints csFunction dae' t order method tdp_fun d' xdot' res' tau F')
    (hs : Scheme.new fresh freshI casadiPoints csFunction dae t order method tdp_fun rep = .ok s)
    (hs' : Scheme.new fresh' freshI' casadiPoints csFunction dae' t order method tdp_fun rep = .ok s')
    (hd : tau.Nodup) (hg : IsGauss tau) (hA : Adjoint d d' xdot xdot' res res' tdp_fun)
    (env : ℝ → Env ℝ) (env' : Env ℝ) (h : DiffVars s d rep env) (h' : ∀ v ∈ s'.eq.vals env', v = 0)
    (hv : ExtendsVars s s' d rep (env 0) env') :
    ∀ n ≤ s.N, ∑ i ∈ Finset.range d.nx, s'.x.val env' (d.nx + i) n * deriv (fun ε => s.x.val (env ε) i n) 0 =
      ∑ i ∈ Finset.range d.nx, s'.x.val env' (d.nx + i) 0 * deriv (fun ε => s.x.val (env ε) i 0) 0 +
      (∑ m ∈ Finset.range n, ∑ k ∈ Finset.range d.nu,
        (s'.q.val env' k (m + 1) - s'.q.val env' k m) * deriv (fun ε => s.u.val (env ε) k m) 0 +
      ∑ k ∈ Finset.range d.np, s'.q.val env' (d.nu + k) n * deriv (fun ε => s.p.val (env ε) k 0) 0) := by
  have b := pre.built hs
  have b' := pre'.built hs'
  have hpos := pre.pos
  have hnp : d.np = d.p.rows := by simp [DaeObj.np, MXExpr.numel, pre.p]
  have hnq' : d'.nq = d'.quad.rows := by simp [DaeObj.nq, MXExpr.numel, pre'.quad]
  have hnx' := pre'.wf.nx
  rw [hA.nx] at hnx'
  rw [hA.nq] at hnq'
  have hsymp : ∀ k < order, ∀ l < order, wb tau k * wA tau k l + wb tau l * wA tau l k = wb tau k * wb tau l := by
    obtain ⟨T, hT, h75⟩ := C75_symplectic tau hd
    have hb : ∀ k < tau.length, T.b.e [k] = wb tau k := by
      intro k hk
      rw [butcher_ok] at hT; cases hT
      simp only [NdArray.vec, List.headD_cons, nd_map_range _ hk, wb]
    have hA : ∀ i j, T.A.e [i, j] = wA tau i j := by
      intro i j
      rw [butcher_ok] at hT; cases hT
      rfl
    intro k hk l hl
    rw [← pre.len] at hk hl
    have := h75.mpr hg k hk l hl
    rwa [hb k hk, hb l hl, hA, hA] at this
  have hx' : ∀ i m, s'.x.val env' i m = env' (fresh' "x") i m := fun i m => by rw [b'.x]; rfl
  have hXd : ∀ n < t.length - 1, ∀ j < order, ∀ i < d.nx,
      HasDerivAt (fun ε => s.X.val (env ε) i (n * order + j)) (deriv (fun ε => s.x.val (env ε) i n) 0 + (nd t (n + 1) - nd t n) *
        ∑ k ∈ Finset.range order, deriv (fun ε => s.Kd.val (env ε) i (n * order + k)) 0 * wA tau j k) 0 := by
    intro n hn j hj i hi
    refine (hasDerivAt_step (h.x n (by rw [b.N_eq]; omega) i hi).hasDerivAt fun k hkl =>
      (h.k (n * order + k) (by rw [b.N_eq, b.M_eq]; exact block_lt hn hkl) i hi).hasDerivAt).congr_of_eventuallyEq
        (Eventually.of_forall fun ε => ?_)
    simp only [b.X (env ε) i n j hn hj, b.x, b.Kd]
    rfl
  have hend : ∀ n < t.length - 1, ∀ i < d.nx,
      deriv (fun ε => s.x.val (env ε) i (n + 1)) 0 = deriv (fun ε => s.x.val (env ε) i n) 0 + (nd t (n + 1) - nd t n) *
        ∑ k ∈ Finset.range order, deriv (fun ε => s.Kd.val (env ε) i (n * order + k)) 0 * wb tau k := by
    intro n hn i hi
    refine HasDerivAt.deriv ?_
    refine (hasDerivAt_step (h.x n (by rw [b.N_eq]; omega) i hi).hasDerivAt fun k hkl =>
      (h.k (n * order + k) (by rw [b.N_eq, b.M_eq]; exact block_lt hn hkl) i hi).hasDerivAt).congr_of_eventuallyEq ?_
    filter_upwards [h.eq] with ε hε
    have := ((Scheme.eq_zero_iff pre b (env ε)).mp hε).2.1 n hn i hi
    rw [b.cont (env ε) i n hn] at this
    simp only [b.x, b.Kd]
    exact (sub_eq_zero.mp this).symm
  have hend' : ∀ n < t.length - 1, ∀ i < d.nx,
      env' (fresh' "x") (d.nx + i) (n + 1) = env' (fresh' "x") (d.nx + i) n + (nd t (n + 1) - nd t n) *
        ∑ k ∈ Finset.range order, env' (fresh' "K") (d.nx + i) (n * order + k) * wb tau k := by
    intro n hn i hi
    have := ((Scheme.eq_zero_iff pre' b' env').mp h').2.1 n hn (d.nx + i) (by rw [hA.nx]; omega)
    rw [b'.cont env' (d.nx + i) n hn] at this
    exact (sub_eq_zero.mp this).symm
  -- the law at the collocation points
  have hlaw : ∀ n < t.length - 1, ∀ k < order, ∑ i ∈ Finset.range d.nx,
      (env' (fresh' "K") (d.nx + i) (n * order + k) * (deriv (fun ε => s.x.val (env ε) i n) 0 + (nd t (n + 1) - nd t n) *
          ∑ l ∈ Finset.range order, deriv (fun ε => s.Kd.val (env ε) i (n * order + l)) 0 * wA tau k l) +
        (env' (fresh' "x") (d.nx + i) n + (nd t (n + 1) - nd t n) *
          ∑ l ∈ Finset.range order, env' (fresh' "K") (d.nx + i) (n * order + l) * wA tau k l) *
          deriv (fun ε => s.Kd.val (env ε) i (n * order + k)) 0) =
      ∑ l ∈ Finset.range d.nu, s'.quad.val env' l (n * order + k) * deriv (fun ε => s.u.val (env ε) l n) 0 +
      ∑ l ∈ Finset.range d.np, s'.quad.val env' (d.nu + l) (n * order + k) * deriv (fun ε => s.p.val (env ε) l 0) 0 := by
    intro n hn k hk
    have hc : n * order + k < (t.length - 1) * order := block_lt hn hk
    have hcs2 : n * order + k < s.N * s.M := by rw [b.N_eq, b.M_eq]; exact hc
    choose e hat using fun ε => exists_atPoint hcs pre b.toCore (env ε) hc
    obtain ⟨e', hat'⟩ := exists_atPoint hcs pre' b'.toCore env' hc
    have o' := hat'.out hcs pre' b'.toCore hc
    have hz' : ResidualZero res' e' := fun i hi l hl => by
      rw [pre'.wf.res_cols] at hl
      obtain rfl : l = 0 := by omega
      rw [← o'.1 i hi]
      exact ((Scheme.eq_zero_iff pre' b' env').mp h').1 _ hc i hi
    have hper : Perturbation d xdot res tdp_fun e (fun i => deriv (fun ε => s.x.val (env ε) i n) 0 + (nd t (n + 1) - nd t n) *
          ∑ l ∈ Finset.range order, deriv (fun ε => s.Kd.val (env ε) i (n * order + l)) 0 * wA tau k l)
        (fun i => deriv (fun ε => s.Kd.val (env ε) i (n * order + k)) 0) (fun l => deriv (fun ε => s.u.val (env ε) l n) 0)
        (fun l => deriv (fun ε => s.p.val (env ε) l 0) 0) := by
      refine ⟨fun i hi => ?_, fun i hi => ?_, fun i hi => ?_, fun i hi => ?_, fun i hi => ?_, fun ε => ?_, fun f hf ε i hi l hl => ?_, ?_⟩
      · exact (hXd n hn k hk i hi).congr_of_eventuallyEq (Eventually.of_forall fun ε => (hat ε).x i (by rw [← pre.wf.nx]; exact hi))
      · exact (h.k _ hcs2 i hi).hasDerivAt.congr_of_eventuallyEq
          (Eventually.of_forall fun ε => (hat ε).xdot i (by rw [← pre.wf.nx]; exact hi))
      · exact (h.z _ hcs2 i hi).congr_of_eventuallyEq
          (Eventually.of_forall fun ε => (hat ε).z i (by rw [← pre.wf.nz]; exact hi))
      · refine (h.u n (by rw [b.N_eq]; exact hn) i hi).hasDerivAt.congr_of_eventuallyEq (Eventually.of_forall fun ε => ?_)
        show d.u.val (e ε) i 0 = s.u.val (env ε) i n
        rw [(hat ε).u i (by rw [← pre.wf.nu]; exact hi), b.M_eq, div_block hk]
      · have hN : 0 < s.N * s.M := by omega
        refine (h.p 0 (by split_ifs; exacts [hN, Nat.one_pos]) i hi).hasDerivAt.congr_of_eventuallyEq ?_
        filter_upwards [h.eq] with ε hε
        rw [(hat ε).p i (by rw [← hnp]; exact hi)]
        cases rep with
        | false => rfl
        | true => exact ((Scheme.eq_zero_iff pre b (env ε)).mp hε).2.2 rfl _ hc i hi
      · rw [(hat ε).t, (hat 0).t]
      · rw [(hat ε).tdp f hf i hi l hl, (hat 0).t]
      · filter_upwards [h.eq] with ε hε i hi l hl
        rw [pre.wf.res_cols] at hl
        obtain rfl : l = 0 := by omega
        rw [← ((hat ε).out hcs pre b.toCore hc).1 i hi]
        exact ((Scheme.eq_zero_iff pre b (env ε)).mp hε).1 _ hc i hi
    have key := hA.law e e' _ _ _ _ hper (firstHalf_atPoint fresh fresh' freshI freshI' casadiPoints csFunction dae dae' t order method
      tdp_fun d d' xdot res xdot' res' tau F F' rep s s' pre pre' b b' hA hv hn hk (hat 0) hat') hz'
    have q1 := Finset.sum_congr (s₁ := Finset.range d.nu) rfl fun l hl => congrArg (· * deriv (fun ε => s.u.val (env ε) l n) 0)
      (o'.2 l (by have := Finset.mem_range.mp hl; omega))
    have q2 := Finset.sum_congr (s₁ := Finset.range d.np) rfl fun l hl => congrArg (· * deriv (fun ε => s.p.val (env ε) l 0) 0)
      (o'.2 (d.nu + l) (by have := Finset.mem_range.mp hl; omega))
    refine Eq.trans (Eq.trans ?_ key) (congrArg₂ (· + ·) q1 q2).symm
    refine Finset.sum_congr rfl fun i hi => ?_
    have hi := Finset.mem_range.mp hi
    rw [hat'.xdot (d.nx + i) (by omega), hat'.x (d.nx + i) (by omega), b'.X env' (d.nx + i) n k hn hk, b'.Kd]
    rfl
  intro n
  induction n with
  | zero => intro _; simp [b'.q_zero]
  | succ n ih =>
    intro hn
    have hn' : n < t.length - 1 := by rw [← b.N_eq]; omega
    have ih := ih (by omega)
    have hq : ∀ k, s'.q.val env' k (n + 1) = s'.q.val env' k n + (nd t (n + 1) - nd t n) *
        ∑ l ∈ Finset.range order, s'.quad.val env' k (n * order + l) * wb tau l := fun k => b'.q env' k n hn'
    have e1 : ∑ i ∈ Finset.range d.nx, s'.x.val env' (d.nx + i) (n + 1) * deriv (fun ε => s.x.val (env ε) i (n + 1)) 0 =
        ∑ i ∈ Finset.range d.nx, s'.x.val env' (d.nx + i) n * deriv (fun ε => s.x.val (env ε) i n) 0 +
        (nd t (n + 1) - nd t n) * ∑ k ∈ Finset.range order, wb tau k *
          (∑ l ∈ Finset.range d.nu, s'.quad.val env' l (n * order + k) * deriv (fun ε => s.u.val (env ε) l n) 0 +
          ∑ l ∈ Finset.range d.np, s'.quad.val env' (d.nu + l) (n * order + k) * deriv (fun ε => s.p.val (env ε) l 0) 0) := by
      rw [Finset.sum_congr (s₁ := Finset.range order) rfl fun k hk => by rw [← hlaw n hn' k (Finset.mem_range.mp hk)]]
      simp only [Finset.mul_sum]
      rw [Finset.sum_comm, ← Finset.sum_add_distrib]
      refine Finset.sum_congr rfl fun i hi => ?_
      have hi := Finset.mem_range.mp hi
      rw [hx', hx', hend' n hn' i hi, hend n hn' i hi, symplectic_step (wb tau) (wA tau) hsymp]
      simp only [Finset.mul_sum]
    have e2 : ∑ k ∈ Finset.range order, wb tau k *
          (∑ l ∈ Finset.range d.nu, s'.quad.val env' l (n * order + k) * deriv (fun ε => s.u.val (env ε) l n) 0 +
          ∑ l ∈ Finset.range d.np, s'.quad.val env' (d.nu + l) (n * order + k) * deriv (fun ε => s.p.val (env ε) l 0) 0) =
        ∑ l ∈ Finset.range d.nu, (∑ k ∈ Finset.range order, s'.quad.val env' l (n * order + k) * wb tau k) *
          deriv (fun ε => s.u.val (env ε) l n) 0 +
        ∑ l ∈ Finset.range d.np, (∑ k ∈ Finset.range order, s'.quad.val env' (d.nu + l) (n * order + k) * wb tau k) *
          deriv (fun ε => s.p.val (env ε) l 0) 0 := by
      simp only [mul_add, Finset.sum_add_distrib, Finset.mul_sum, Finset.sum_mul]
      rw [Finset.sum_comm, Finset.sum_comm (s := Finset.range order) (t := Finset.range d.np)]
      congr 1 <;> exact Finset.sum_congr rfl fun l _ => Finset.sum_congr rfl fun k _ => by ring
    rw [e1, ih, e2, Finset.sum_range_succ]
    have e3 : ∑ k ∈ Finset.range d.nu, (s'.q.val env' k (n + 1) - s'.q.val env' k n) * deriv (fun ε => s.u.val (env ε) k n) 0 =
        (nd t (n + 1) - nd t n) * ∑ l ∈ Finset.range d.nu, (∑ k ∈ Finset.range order, s'.quad.val env' l (n * order + k) * wb tau k) *
          deriv (fun ε => s.u.val (env ε) l n) 0 := by
      rw [Finset.mul_sum]
      exact Finset.sum_congr rfl fun k _ => by rw [hq]; ring
    have e4 : ∑ k ∈ Finset.range d.np, s'.q.val env' (d.nu + k) (n + 1) * deriv (fun ε => s.p.val (env ε) k 0) 0 =
        ∑ k ∈ Finset.range d.np, s'.q.val env' (d.nu + k) n * deriv (fun ε => s.p.val (env ε) k 0) 0 +
        (nd t (n + 1) - nd t n) * ∑ l ∈ Finset.range d.np, (∑ k ∈ Finset.range order, s'.quad.val env' (d.nu + l) (n * order + k) *
          wb tau k) * deriv (fun ε => s.p.val (env ε) l 0) 0 := by
      rw [Finset.mul_sum, ← Finset.sum_add_distrib]
      exact Finset.sum_congr rfl fun k _ => by rw [hq]; ring
    rw [e3, e4]
    ring

/-- The values of the variables of the scheme `s` in an assignment to the variables of the adjoint scheme. -/
def restrictEnv (fresh fresh' : String → ℕ) (env' : Env ℝ) : Env ℝ := fun id =>
  if id = fresh "x" then env' (fresh' "x") else if id = fresh "K" then env' (fresh' "K") else if id = fresh "Z" then env' (fresh' "Z")
  else if id = fresh "u" then env' (fresh' "u") else env' (fresh' "P")

/-- A solution of the collocation equations of the adjoint model contains a solution of those of the model. -/
theorem restrictEnv_eq (hcs : IsCsFunction csFunction)
    (pre : SchemePre freshI casadiPoints csFunction dae t order method tdp_fun d xdot res tau F)
    (pre' : SchemePre freshI' casadiPoints csFunction dae' t order method tdp_fun d' xdot' res' tau F')
    (hs : Scheme.new fresh freshI casadiPoints csFunction dae t order method tdp_fun rep = .ok s)
    (hs' : Scheme.new fresh' freshI' casadiPoints csFunction dae' t order method tdp_fun rep = .ok s')
    (hfr : DistinctSyms fresh) (hA : Adjoint d d' xdot xdot' res res' tdp_fun) (env' : Env ℝ) (h' : ∀ v ∈ s'.eq.vals env', v = 0) :
    ExtendsVars s s' d rep (restrictEnv fresh fresh' env') env' ∧ ∀ v ∈ s.eq.vals (restrictEnv fresh fresh' env'), v = 0 := by
  have b := pre.built hs
  have b' := pre'.built hs'
  have hx : s.x.val (restrictEnv fresh fresh' env') = s'.x.val env' := by
    rw [b.x, b'.x]; simp only [MXExpr.sym, restrictEnv, if_true]
  have hk : s.Kd.val (restrictEnv fresh fresh' env') = s'.Kd.val env' := by
    rw [b.Kd, b'.Kd]; simp only [MXExpr.sym, restrictEnv, if_true, if_neg hfr.xK.symm]
  have hz : s.Z.val (restrictEnv fresh fresh' env') = s'.Z.val env' := by
    rw [b.Z, b'.Z]; simp only [MXExpr.sym, restrictEnv, if_true, if_neg hfr.xZ.symm, if_neg hfr.KZ.symm]
  have hu : s.u.val (restrictEnv fresh fresh' env') = s'.u.val env' := by
    rw [b.u, b'.u]; simp only [MXExpr.sym, restrictEnv, if_true, if_neg hfr.xu.symm, if_neg hfr.Ku.symm, if_neg hfr.Zu.symm]
  have hp : s.p.val (restrictEnv fresh fresh' env') = s'.p.val env' := by
    rw [b.p, b'.p]
    simp only [MXExpr.sym, restrictEnv, if_neg hfr.xP.symm, if_neg hfr.KP.symm, if_neg hfr.ZP.symm, if_neg hfr.uP.symm]
  have hv : ExtendsVars s s' d rep (restrictEnv fresh fresh' env') env' :=
    ⟨fun n _ i _ => by rw [hx], fun c _ i _ => by rw [hk], fun c _ i _ => by rw [hz], fun n _ i _ => by rw [hu],
      fun c _ i _ => by rw [hp]⟩
  refine ⟨hv, ?_⟩
  obtain ⟨z1, z2, z3⟩ := (Scheme.eq_zero_iff pre' b' env').mp h'
  refine (Scheme.eq_zero_iff pre b _).mpr ⟨fun c hc i hi => ?_, fun n hn i hi => ?_, fun hr c hc i hi => ?_⟩
  · have hpos := pre.pos
    obtain ⟨n, j, hn, hj, rfl⟩ : ∃ n j, n < t.length - 1 ∧ j < order ∧ c = n * order + j :=
      ⟨c / order, c % order, Nat.div_lt_of_lt_mul (by rwa [mul_comm]), Nat.mod_lt _ hpos, (Nat.div_add_mod' c order).symm⟩
    obtain ⟨e, hat⟩ := exists_atPoint hcs pre b.toCore (restrictEnv fresh fresh' env') hc
    obtain ⟨e', hat'⟩ := exists_atPoint hcs pre' b'.toCore env' hc
    have o := hat.out hcs pre b.toCore hc
    have o' := hat'.out hcs pre' b'.toCore hc
    rw [o.1 i hi]
    refine hA.base e e' (firstHalf_atPoint fresh fresh' freshI freshI' casadiPoints csFunction dae dae' t order method
      tdp_fun d d' xdot res xdot' res' tau F F' rep s s' pre pre' b b' hA hv hn hj hat hat') (fun i hi l hl => ?_) i hi 0
      (by rw [pre.wf.res_cols]; exact Nat.one_pos)
    rw [pre'.wf.res_cols] at hl
    obtain rfl : l = 0 := by omega
    rw [← o'.1 i hi]
    exact z1 _ hc i hi
  · have := z2 n hn i (by rw [hA.nx]; omega)
    rw [b'.cont env' i n hn] at this
    rw [b.cont _ i n hn]
    rw [b.x, b'.x] at hx
    rw [b.Kd, b'.Kd] at hk
    change restrictEnv fresh fresh' env' (fresh "x") = env' (fresh' "x") at hx
    change restrictEnv fresh fresh' env' (fresh "K") = env' (fresh' "K") at hk
    rw [hx, hk]
    exact this
  · rw [hp]
    exact z3 hr c hc i (by rw [hA.np]; exact hi)

variable (fresh₂ freshI₂ : String → ℕ) (dae₂ d₂ : DaeObj ℝ) (xdot₂ res₂ : MXExpr ℝ) (F₂ : CsFn ℝ)

/-- **C134** (regular models) For a regular model with small steps and linear tangent equations, the derivatives exist and are those
given by any solution of the collocation equations of the adjoint model with the same initial states, inputs and parameters. -/
theorem C134_regular (hcs : IsCsFunction csFunction)
    (pre : SchemePre freshI casadiPoints csFunction dae t order method tdp_fun d xdot res tau F)
    (pre' : SchemePre freshI' casadiPoints csFunction dae' t order method tdp_fun d' xdot' res' tau F')
    (pre₂ : SchemePre freshI₂ casadiPoints csFunction dae₂ t order method tdp_fun d₂ xdot₂ res₂ tau F₂)
    (hs : Scheme.new fresh freshI casadiPoints csFunction dae t order method tdp_fun rep = .ok s)
    (hs' : Scheme.new fresh' freshI' casadiPoints csFunction dae' t order method tdp_fun rep = .ok s')
    (hfr : DistinctSyms fresh) (hfr₂ : DistinctSyms fresh₂) (hT : LinearTangent d d₂ xdot xdot₂ res res₂ tdp_fun)
    (L Lz G Gz θ : ℝ) (reg : RegularDae d xdot res L Lz G Gz)
    (T : ButcherTableau ℝ) (hTab : butcherTableuForCollocationPoints tau = .ok T) (α β H : ℝ)
    (hα : ∀ j < order, ∑ k ∈ Finset.range order, |T.A.e [j, k]| ≤ α) (hβ : ∑ k ∈ Finset.range order, |T.b.e [k]| ≤ β)
    (ht : ∀ n < t.length - 1, nd t n ≤ nd t (n + 1) ∧ nd t (n + 1) - nd t n ≤ H) (hθ : θ < 1) (hstep : L * (H * α) ≤ θ)
    (hd : tau.Nodup) (hg : IsGauss tau) (hA : Adjoint d d' xdot xdot' res res' tdp_fun)
    (env : ℝ → Env ℝ) (env' : Env ℝ) (h : ∀ᶠ ε in 𝓝 0, ∀ v ∈ s.eq.vals (env ε), v = 0) (h' : ∀ v ∈ s'.eq.vals env', v = 0)
    (hx : ∀ i < d.nx, DifferentiableAt ℝ (fun ε => s.x.val (env ε) i 0) 0 ∧ s'.x.val env' i 0 = s.x.val (env 0) i 0)
    (hu : ∀ n < s.N, ∀ i < d.nu, DifferentiableAt ℝ (fun ε => s.u.val (env ε) i n) 0 ∧ s'.u.val env' i n = s.u.val (env 0) i n)
    (hp : ∀ c < (if rep then s.N * s.M else 1), ∀ i < d.np,
      DifferentiableAt ℝ (fun ε => s.p.val (env ε) i c) 0 ∧ s'.p.val env' i c = s.p.val (env 0) i c) :
    (∀ n ≤ s.N, ∀ i < d.nx, DifferentiableAt ℝ (fun ε => s.x.val (env ε) i n) 0) ∧
    ∀ n ≤ s.N, ∑ i ∈ Finset.range d.nx, s'.x.val env' (d.nx + i) n * deriv (fun ε => s.x.val (env ε) i n) 0 =
      ∑ i ∈ Finset.range d.nx, s'.x.val env' (d.nx + i) 0 * deriv (fun ε => s.x.val (env ε) i 0) 0 +
      (∑ m ∈ Finset.range n, ∑ k ∈ Finset.range d.nu,
        (s'.q.val env' k (m + 1) - s'.q.val env' k m) * deriv (fun ε => s.u.val (env ε) k m) 0 +
      ∑ k ∈ Finset.range d.np, s'.q.val env' (d.nu + k) n * deriv (fun ε => s.p.val (env ε) k 0) 0) := by
  have b := pre.built hs
  have hpos := pre.pos
  have htwo := pre.two
  obtain ⟨s₂, hs₂, -⟩ := Scheme.new_built (fresh := fresh₂) rep pre₂
  obtain ⟨env₂, -, ⟨dx, dk, dz, -, -⟩, -⟩ := C132_exists fresh fresh₂ freshI freshI₂ casadiPoints csFunction dae dae₂ t order method
    tdp_fun d d₂ xdot res xdot₂ res₂ tau F F₂ rep s s₂ hcs pre pre₂ hs hs₂ hfr hfr₂ hT L Lz G Gz θ reg T hTab α β H
    (by rw [b.M_eq]; exact hα) (by rw [b.M_eq]; exact hβ) (by rw [b.N_eq]; exact ht) hθ hstep env h
    (fun i hi => (hx i hi).1) (fun n hn i hi => (hu n hn i hi).1) (fun c hc i hi => (hp c hc i hi).1)
  have hL := reg.nonneg.1
  obtain ⟨hv0, h0⟩ := restrictEnv_eq fresh fresh' freshI freshI' casadiPoints csFunction dae dae' t order method tdp_fun d d' xdot res
    xdot' res' tau F F' rep s s' hcs pre pre' hs hs' hfr hA env' h'
  have hN : 0 < s.N * s.M := by rw [b.N_eq, b.M_eq]; exact Nat.mul_pos (by omega) hpos
  have h1 : 0 < (if rep then s.N * s.M else 1) := by split_ifs; exacts [hN, Nat.one_pos]
  obtain ⟨q1, q2⟩ := C88_unique fresh freshI casadiPoints csFunction dae t order method tdp_fun d xdot res tau F rep s hcs pre hs L Lz θ
    (reg.indexOne pre.wf.res_cols) hθ T hTab (fun n hn j hj => by
      rw [b.N_eq] at hn
      rw [b.M_eq] at hj ⊢
      refine (mul_le_mul_of_nonneg_left ?_ hL).trans hstep
      have hn0 := ht n hn
      rw [abs_of_nonneg (by linarith)]
      exact mul_le_mul hn0.2 (hα j hj) (Finset.sum_nonneg fun _ _ => abs_nonneg _) (by linarith))
    (restrictEnv fresh fresh' env') (env 0) h0 h.self_of_nhds (fun i hi => by rw [← hv0.x 0 (Nat.zero_le _) i hi, (hx i hi).2])
    (fun n hn i hi => by rw [← hv0.u n hn i hi, (hu n hn i hi).2]) (fun i hi => by rw [← hv0.p 0 h1 i hi, (hp 0 h1 i hi).2])
  refine ⟨fun n hn i hi => (dx n hn i hi).2.differentiableAt, ?_⟩
  exact C134_adjoint fresh fresh' freshI freshI' casadiPoints csFunction dae dae' t order method tdp_fun d d' xdot res xdot' res' tau
    F F' rep s s' hcs pre pre' hs hs' hd hg hA env env' ⟨h, fun n hn i hi => (dx n hn i hi).2.differentiableAt,
      fun c hc i hi => (dk c hc i hi).2.differentiableAt, fun c hc i hi => (dz c hc i hi).2.differentiableAt,
      fun n hn i hi => (hu n hn i hi).1, fun c hc i hi => (hp c hc i hi).1⟩ h'
    ⟨fun n hn i hi => by rw [hv0.x n hn i hi, q1 n hn i hi], fun c hc i hi => by rw [hv0.k c hc i hi, ((q2 c hc).1 i hi).1],
      fun c hc i hi => by rw [hv0.z c hc i hi, (q2 c hc).2 i hi], fun n hn i hi => (hu n hn i hi).2,
      fun c hc i hi => (hp c hc i hi).2⟩

/-- **C134** (integrator) For a regular model without parameters (with parameters the integrator of the adjoint model cannot be
constructed, C31) and small steps: one call of `CollocationIntegrator` for the adjoint model, with Gauss nodes, gives the derivatives of
the states computed by the integrator of the model with respect to the initial states and to inputs that change by the same amount on
all intervals, for every rootfinder. -/
theorem C134_integrator (hcs : IsCsFunction csFunction)
    (pre : SchemePre freshI casadiPoints csFunction dae t order method tdp_fun d xdot res tau F)
    (pre' : SchemePre freshI' casadiPoints csFunction dae' t order method tdp_fun d' xdot' res' tau F')
    (pre₂ : SchemePre freshI₂ casadiPoints csFunction dae₂ t order method tdp_fun d₂ xdot₂ res₂ tau F₂)
    (hfr : DistinctSyms fresh) (hfr' : DistinctSyms fresh') (hfr₂ : DistinctSyms fresh₂) (hp0 : d.np = 0)
    (hT : LinearTangent d d₂ xdot xdot₂ res res₂ tdp_fun)
    (L Lz G Gz θ : ℝ) (reg : RegularDae d xdot res L Lz G Gz)
    (T : ButcherTableau ℝ) (hTab : butcherTableuForCollocationPoints tau = .ok T) (α β H : ℝ)
    (hα : ∀ j < order, ∑ k ∈ Finset.range order, |T.A.e [j, k]| ≤ α) (hβ : ∑ k ∈ Finset.range order, |T.b.e [k]| ≤ β)
    (ht : ∀ n < t.length - 1, nd t n ≤ nd t (n + 1) ∧ nd t (n + 1) - nd t n ≤ H) (hθ : θ < 1) (hstep : L * (H * α) ≤ θ)
    (hd : tau.Nodup) (hg : IsGauss tau) (hA : Adjoint d d' xdot xdot' res res' tdp_fun)
    (rootfinder : (List ℝ → List ℝ) → List ℝ → Except PyErr (List ℝ)) (hrf : IsRootfinder rootfinder) :
    ∃ g g', Integrator.new fresh freshI casadiPoints csFunction dae t order method tdp_fun = .ok g ∧
      Integrator.new fresh' freshI' casadiPoints csFunction dae' t order method tdp_fun = .ok g' ∧
      ∀ (x0 z0 u p : ℝ → Mat ℝ) (x0' z0' p' : Mat ℝ) (μ : ℕ → ℝ) (out : ℝ → IntegratorOut ℝ) (out' : IntegratorOut ℝ),
      DiffMat d.nx 1 x0 → (∀ k < d.nu, ∀ n < t.length - 1, HasDerivAt (fun ε => (u ε).e k n) (μ k) 0) →
      (∀ i < d.nx, x0'.e i 0 = (x0 0).e i 0) →
      (∀ᶠ ε in 𝓝 0, g.call rootfinder (x0 ε) (z0 ε) (u ε) (p ε) = .ok (out ε)) →
      g'.call rootfinder x0' z0' (u 0) p' = .ok out' →
      ∑ i ∈ Finset.range d.nx, out'.x.e (d.nx + i) (t.length - 1) * deriv (fun ε => (out ε).x.e i (t.length - 1)) 0 =
        ∑ i ∈ Finset.range d.nx, x0'.e (d.nx + i) 0 * deriv (fun ε => (x0 ε).e i 0) 0 +
        ∑ k ∈ Finset.range d.nu, out'.qf.e k 0 * μ k := by
  obtain ⟨s, x1, hs, -, hx1v, hnew⟩ := integrator_new fresh freshI casadiPoints csFunction dae t order method tdp_fun d xdot res tau F pre
  obtain ⟨s', x1', hs', -, hx1v', hnew'⟩ := integrator_new fresh' freshI' casadiPoints csFunction dae' t order method tdp_fun d' xdot' res'
    tau F' pre'
  obtain ⟨px, -, -, pp, -, pq, -⟩ := makeImplicit_parts pre.impl
  obtain ⟨px', -, -, pp', -, pq', -⟩ := makeImplicit_parts pre'.impl
  have hnx : dae.nx = d.nx := by simp [DaeObj.nx, px]
  have hnx' : dae'.nx = d'.nx := by simp [DaeObj.nx, px']
  have hnp : dae.np = d.np := by simp [DaeObj.np, pp]
  have hnp' : dae'.np = d'.np := by simp [DaeObj.np, pp']
  have hAnp := hA.np
  rw [if_neg (by omega)] at hnew hnew'
  have b := pre.built hs
  have b' := pre'.built hs'
  have htwo := pre.two
  obtain ⟨g, hgn, hgs, hge, hgr⟩ : ∃ g, Integrator.new fresh freshI casadiPoints csFunction dae t order method tdp_fun = .ok g ∧
      g.scheme = s ∧ g.env = Integrator.envOf fresh s ∧ ∀ w x0 u p, g.residual w x0 u p = s.eq.vals (Integrator.envOf fresh s w u p) ++
      (List.range dae.nx).map fun i => x1.val (Integrator.envOf fresh s w u p) i 0 - x0.e i 0 :=
    ⟨_, hnew, rfl, rfl, fun _ _ _ _ => rfl⟩
  obtain ⟨g', hgn', hgs', hge', hgr'⟩ : ∃ g, Integrator.new fresh' freshI' casadiPoints csFunction dae' t order method tdp_fun = .ok g ∧
      g.scheme = s' ∧ g.env = Integrator.envOf fresh' s' ∧ ∀ w x0 u p, g.residual w x0 u p =
      s'.eq.vals (Integrator.envOf fresh' s' w u p) ++
      (List.range dae'.nx).map fun i => x1'.val (Integrator.envOf fresh' s' w u p) i 0 - x0.e i 0 :=
    ⟨_, hnew', rfl, rfl, fun _ _ _ _ => rfl⟩
  refine ⟨g, g', hgn, hgn', ?_⟩
  intro x0 z0 u p x0' z0' p' μ out out' hx0 hμ h0 hc hc'
  obtain ⟨env', e1', e2', e3', e4', e5', -, -, -, -, -, e6'⟩ := integrator_call_spec t order tdp_fun d' xdot' res' tau F' b' hfr' hnx' x1'
    hx1v' g' hgs' hge' hgr' rootfinder hrf _ _ _ _ _ hc'
  have spec : ∀ ε, ∃ env : Env ℝ, _ → _ := fun ε => by
    by_cases hε : g.call rootfinder (x0 ε) (z0 ε) (u ε) (p ε) = .ok (out ε)
    · obtain ⟨env, henv⟩ := integrator_call_spec t order tdp_fun d xdot res tau F b hfr hnx x1 hx1v g hgs hge hgr rootfinder hrf _ _ _ _ _ hε
      exact ⟨env, fun _ => henv⟩
    · exact ⟨fun _ _ _ => 0, fun h => absurd h hε⟩
  choose env henv using spec
  have hall := hc.mono fun ε hε => henv ε hε
  have hall0 := hall.self_of_nhds
  have hud : ∀ k < d.nu, ∀ n < t.length - 1, HasDerivAt (fun ε => s.u.val (env ε) k n) (μ k) 0 := fun k hk n hn =>
    (hμ k hk n hn).congr_of_eventuallyEq (by filter_upwards [hall] with ε hε; rw [hε.2.2.1])
  have key := (C134_regular fresh fresh' freshI freshI' casadiPoints csFunction dae dae' t order method tdp_fun d d' xdot res xdot' res' tau
    F F' false s s' fresh₂ freshI₂ dae₂ d₂ xdot₂ res₂ F₂ hcs pre pre' pre₂ hs hs' hfr hfr₂ hT L Lz G Gz θ reg T hTab α β H hα hβ ht hθ
    hstep hd hg hA env env' (hall.mono fun ε hε => hε.1) e1'
    (fun i hi => ⟨(hx0 i hi 0 Nat.one_pos).congr_of_eventuallyEq (by filter_upwards [hall] with ε hε; exact hε.2.1 i hi), by
      rw [e2' i (by rw [hA.nx]; omega), hall0.2.1 i hi, h0 i hi]⟩)
    (fun n hn i hi => ⟨(hud i hi n (by rw [← b.N_eq]; exact hn)).differentiableAt, by rw [e3', hall0.2.2.1]⟩)
    (fun c hc i hi => by omega)).2 (t.length - 1) (by rw [b.N_eq])
  have d₁ : ∀ i n, deriv (fun ε => (out ε).x.e i n) 0 = deriv (fun ε => s.x.val (env ε) i n) 0 := fun i n =>
    EventuallyEq.deriv_eq (by filter_upwards [hall] with ε hε; rw [hε.2.2.2.2.1])
  have i₁ : ∀ i < d.nx, deriv (fun ε => (x0 ε).e i 0) 0 = deriv (fun ε => s.x.val (env ε) i 0) 0 := fun i hi =>
    EventuallyEq.deriv_eq (by filter_upwards [hall] with ε hε; rw [hε.2.1 i hi])
  simp only [d₁, e5']
  rw [key, hp0, Finset.sum_range_zero, add_zero]
  congr 1
  · exact Finset.sum_congr rfl fun i hi => by
      have hi := Finset.mem_range.mp hi
      rw [i₁ i hi, e2' (d.nx + i) (by rw [hA.nx]; omega)]
  · rw [Finset.sum_comm]
    refine Finset.sum_congr rfl fun k hk => ?_
    have hk := Finset.mem_range.mp hk
    rw [Finset.sum_congr rfl fun m hm => by rw [(hud k hk m (Finset.mem_range.mp hm)).deriv], ← Finset.sum_mul,
      Finset.sum_range_sub, b'.q_zero, sub_zero, e6']

end

/-! ## Explicit models `x' = f(x, u, p, t)` -/

/-- A model `x' = f`, with `n` states, `m` inputs, `l` parameters and the quadratures `g`. -/
def odeUO (n m l q : ℕ) (f g : Env ℝ → ℕ → ℝ) : DaeObj ℝ :=
  ⟨.sym 0 n, .sym 1 0, .sym 2 m, .sym 3 l, .sym 4 1, ⟨q, 1, false, fun env i _ => g env i⟩, .sym 5 0,
    .semi ⟨n, 1, false, fun env i _ => f env i⟩ ⟨0, 1, false, fun _ _ _ => 0⟩⟩

/-- Its implicit form. -/
noncomputable def odeUD (freshI : String → ℕ) (n m l q : ℕ) (f g : Env ℝ → ℕ → ℝ) : DaeObj ℝ :=
  ⟨.sym 0 n, .sym 1 0, .sym 2 m, .sym 3 l, .sym 4 1, ⟨q, 1, false, fun env i _ => g env i⟩, .sym 5 0,
    .implicit (.sym (freshI "xdot") n) (odeRes freshI n f)⟩

theorem odeU_pre (freshI : String → ℕ) (hI : 6 ≤ freshI "xdot") (n m l q : ℕ) (f g : Env ℝ → ℕ → ℝ)
    (hf : ∀ e e' : Env ℝ, (∀ i < n, e 0 i 0 = e' 0 i 0) → (∀ i < m, e 2 i 0 = e' 2 i 0) → (∀ i < l, e 3 i 0 = e' 3 i 0) →
      e 4 0 0 = e' 4 0 0 → (∀ i < n, f e i = f e' i) ∧ ∀ i < q, g e i = g e' i)
    (himp : (odeUO n m l q f g).makeImplicit freshI = .ok (odeUD freshI n m l q f g))
    (t tau : List ℝ) (two : 2 ≤ t.length) (pos : 0 < tau.length) :
    ∃ F : CsFn ℝ, SchemePre freshI (fun _ _ => .ok tau) idealCsFunction (odeUO n m l q f g) t tau.length "legendre" none
        (odeUD freshI n m l q f g) (.sym (freshI "xdot") n) (odeRes freshI n f) tau F := by
  have hfun := isFunctionOf_syms (K := ℝ) [(freshI "xdot", n, 1), (0, n, 1), (1, 0, 1), (2, m, 1), (3, l, 1), (4, 1, 1), (5, 0, 1)]
    (by simp; omega) [odeRes freshI n f, ⟨q, 1, false, fun env i _ => g env i⟩] (by
      intro o ho env1 env2 h
      simp only [List.mem_cons, List.not_mem_nil, or_false, forall_eq_or_imp, forall_eq] at h ho
      have h0 := hf env1 env2 (fun i hi => h.2.1 i hi 0 (by omega)) (fun i hi => h.2.2.2.1 i hi 0 (by omega))
        (fun i hi => h.2.2.2.2.1 i hi 0 (by omega)) (h.2.2.2.2.2.1 0 (by omega) 0 (by omega))
      rcases ho with rfl | rfl
      · refine ⟨rfl, rfl, ?_⟩
        intro i hi j hj
        have hx := h.1 i hi j hj
        simp only [odeRes, MXExpr.at', h0.1 i hi, hx]
      · exact ⟨rfl, rfl, fun i hi j _ => h0.2 i hi⟩)
  have hF : ∃ F, idealCsFunction [MXExpr.sym (freshI "xdot") n, .sym 0 n, .sym 1 0, .sym 2 m, .sym 3 l, .sym 4 1, .sym 5 0]
      [odeRes freshI n f, (⟨q, 1, false, fun env i _ => g env i⟩ : MXExpr ℝ)] = .ok F := by
    unfold idealCsFunction
    rw [dif_pos ⟨_, hfun⟩]
    exact ⟨_, rfl⟩
  obtain ⟨F, hF⟩ := hF
  exact ⟨F, himp, ⟨rfl, rfl, by simp [DaeObj.nu, odeUD, MXExpr.numel, MXExpr.sym], rfl, ⟨rfl, rfl⟩, rfl, rfl, rfl, rfl⟩, rfl, rfl, two, pos,
    rfl, rfl, ⟨rfl, rfl⟩, hF⟩

/-- The right-hand side `f(x, u, p, t)`. -/
def rhsU (f : (ℕ → ℝ) → (ℕ → ℝ) → (ℕ → ℝ) → ℝ → ℕ → ℝ) : Env ℝ → ℕ → ℝ := fun env =>
  f (fun k => env 0 k 0) (fun k => env 2 k 0) (fun k => env 3 k 0) (env 4 0 0)

/-- The right-hand side of the adjoint model: `f` and `-J' λ`. -/
noncomputable def rhsUA (n : ℕ) (f : (ℕ → ℝ) → (ℕ → ℝ) → (ℕ → ℝ) → ℝ → ℕ → ℝ)
    (J : (ℕ → ℝ) → (ℕ → ℝ) → (ℕ → ℝ) → ℝ → ℕ → ℕ → ℝ) : Env ℝ → ℕ → ℝ := fun env i =>
  if i < n then f (fun k => env 0 k 0) (fun k => env 2 k 0) (fun k => env 3 k 0) (env 4 0 0) i
  else -∑ k ∈ Finset.range n, J (fun k => env 0 k 0) (fun k => env 2 k 0) (fun k => env 3 k 0) (env 4 0 0) k (i - n) * env 0 (n + k) 0

/-- The quadratures of the adjoint model: `B' λ` for the inputs and `C' λ` for the parameters. -/
noncomputable def quadUA (n m : ℕ) (B C : (ℕ → ℝ) → (ℕ → ℝ) → (ℕ → ℝ) → ℝ → ℕ → ℕ → ℝ) : Env ℝ → ℕ → ℝ := fun env i =>
  if i < m then ∑ k ∈ Finset.range n, B (fun k => env 0 k 0) (fun k => env 2 k 0) (fun k => env 3 k 0) (env 4 0 0) k i * env 0 (n + k) 0
  else ∑ k ∈ Finset.range n, C (fun k => env 0 k 0) (fun k => env 2 k 0) (fun k => env 3 k 0) (env 4 0 0) k (i - m) * env 0 (n + k) 0

/-- `J`, `B` and `C` are the derivatives of `f` with respect to states, inputs and parameters, and all depend only on the first `n`, `m`
and `l` elements. -/
structure IsJacobians (n m l : ℕ) (f : (ℕ → ℝ) → (ℕ → ℝ) → (ℕ → ℝ) → ℝ → ℕ → ℝ)
    (J B C : (ℕ → ℝ) → (ℕ → ℝ) → (ℕ → ℝ) → ℝ → ℕ → ℕ → ℝ) : Prop where
  deriv : ∀ (x u p : ℝ → ℕ → ℝ) (x' u' p' : ℕ → ℝ) (t : ℝ), (∀ k < n, HasDerivAt (fun ε => x ε k) (x' k) 0) →
    (∀ k < m, HasDerivAt (fun ε => u ε k) (u' k) 0) → (∀ k < l, HasDerivAt (fun ε => p ε k) (p' k) 0) → ∀ i < n,
    HasDerivAt (fun ε => f (x ε) (u ε) (p ε) t i) (∑ k ∈ Finset.range n, J (x 0) (u 0) (p 0) t i k * x' k +
      (∑ k ∈ Finset.range m, B (x 0) (u 0) (p 0) t i k * u' k + ∑ k ∈ Finset.range l, C (x 0) (u 0) (p 0) t i k * p' k)) 0
  congr : ∀ x u p x' u' p' : ℕ → ℝ, ∀ t, (∀ k < n, x k = x' k) → (∀ k < m, u k = u' k) → (∀ k < l, p k = p' k) → ∀ i < n,
    f x u p t i = f x' u' p' t i ∧ (∀ k < n, J x u p t i k = J x' u' p' t i k) ∧ (∀ k < m, B x u p t i k = B x' u' p' t i k) ∧
      ∀ k < l, C x u p t i k = C x' u' p' t i k

/-- **C134** (explicit models) The adjoint model `x' = f(x, u, p, t)`, `λ' = -J' λ` with the quadratures `B' λ` and `C' λ`. -/
theorem C134_law {n m l : ℕ} {f : (ℕ → ℝ) → (ℕ → ℝ) → (ℕ → ℝ) → ℝ → ℕ → ℝ}
    {J B C : (ℕ → ℝ) → (ℕ → ℝ) → (ℕ → ℝ) → ℝ → ℕ → ℕ → ℝ} (hJ : IsJacobians n m l f J B C) (freshI : String → ℕ)
    (q : ℕ) (g : Env ℝ → ℕ → ℝ) :
    Adjoint (odeUD freshI n m l q (rhsU f) g) (odeUD freshI (n + n) m l (m + l) (rhsUA n f J) (quadUA n m B C))
      (.sym (freshI "xdot") n) (.sym (freshI "xdot") (n + n)) (odeRes freshI n (rhsU f)) (odeRes freshI (n + n) (rhsUA n f J)) none := by
  have nx : ∀ n m l q f g, (odeUD freshI n m l q f g).nx = n := fun n m l q f g => by simp [DaeObj.nx, odeUD, MXExpr.numel, MXExpr.sym]
  have nu : ∀ n m l q f g, (odeUD freshI n m l q f g).nu = m := fun n m l q f g => by simp [DaeObj.nu, odeUD, MXExpr.numel, MXExpr.sym]
  have np : ∀ n m l q f g, (odeUD freshI n m l q f g).np = l := fun n m l q f g => by simp [DaeObj.np, odeUD, MXExpr.numel, MXExpr.sym]
  have nq : ∀ n m l q f g, (odeUD freshI n m l q f g).nq = q := fun n m l q f g => by simp [DaeObj.nq, odeUD, MXExpr.numel]
  refine ⟨by rw [nx, nx], le_rfl, by rw [nu, nu], by rw [np, np], by rw [nq, nu, np], fun e e' h hz => ?_,
    fun e e' v w μ π h h0 hz => ?_⟩
  · obtain ⟨hk, hx, -, hu, hp, ht, -⟩ := h
    rw [nx] at hk hx
    rw [nu] at hu
    rw [np] at hp
    change ∀ i < n, e' (freshI "xdot") i 0 = e (freshI "xdot") i 0 at hk
    change ∀ i < n, e' 0 i 0 = e 0 i 0 at hx
    change ∀ i < m, e' 2 i 0 = e 2 i 0 at hu
    change ∀ i < l, e' 3 i 0 = e 3 i 0 at hp
    change e 4 0 0 = e' 4 0 0 at ht
    rw [ode_residual] at hz ⊢
    intro i hi
    rw [← hk i hi, hz i (by omega)]
    simp only [rhsUA, rhsU, if_pos hi, ht]
    exact (hJ.congr _ _ _ _ _ _ _ hx hu hp i hi).1
  · obtain ⟨-, hx, -, hu, hp, ht, -⟩ := h0
    have vx := h.x
    have vk := h.xdot
    have vu := h.u
    have vp := h.p
    have vt := h.t
    rw [nx] at hx vx vk
    rw [nu] at hu vu
    rw [np] at hp vp
    change ∀ i < n, e' 0 i 0 = e 0 0 i 0 at hx
    change ∀ i < m, e' 2 i 0 = e 0 2 i 0 at hu
    change ∀ i < l, e' 3 i 0 = e 0 3 i 0 at hp
    change e 0 4 0 0 = e' 4 0 0 at ht
    change ∀ ε, e ε 4 0 0 = e 0 4 0 0 at vt
    have hc := hJ.congr _ _ _ _ _ _ (e' 4 0 0) hx hu hp
    rw [ode_residual] at hz
    have hw : ∀ i < n, w i = ∑ k ∈ Finset.range n, J (fun k => e' 0 k 0) (fun k => e' 2 k 0) (fun k => e' 3 k 0) (e' 4 0 0) i k * v k +
        (∑ k ∈ Finset.range m, B (fun k => e' 0 k 0) (fun k => e' 2 k 0) (fun k => e' 3 k 0) (e' 4 0 0) i k * μ k +
        ∑ k ∈ Finset.range l, C (fun k => e' 0 k 0) (fun k => e' 2 k 0) (fun k => e' 3 k 0) (e' 4 0 0) i k * π k) := by
      intro i hi
      have hd := hJ.deriv (fun ε k => e ε 0 k 0) (fun ε k => e ε 2 k 0) (fun ε k => e ε 3 k 0) v μ π (e' 4 0 0) vx vu vp i hi
      rw [Finset.sum_congr rfl fun k hk => by rw [(hc i hi).2.1 k (Finset.mem_range.mp hk)],
        Finset.sum_congr (s₁ := Finset.range m) rfl fun k hk => by rw [(hc i hi).2.2.1 k (Finset.mem_range.mp hk)],
        Finset.sum_congr (s₁ := Finset.range l) rfl fun k hk => by rw [(hc i hi).2.2.2 k (Finset.mem_range.mp hk)]]
      refine (vk i hi).unique (hd.congr_of_eventuallyEq ?_)
      filter_upwards [h.residual] with ε hε
      have := (ode_residual freshI n (rhsU f) (e ε)).mp hε i hi
      simp only [rhsU, vt ε, ht] at this
      exact this
    have hl : ∀ i < n, e' (freshI "xdot") (n + i) 0 = -∑ k ∈ Finset.range n,
        J (fun k => e' 0 k 0) (fun k => e' 2 k 0) (fun k => e' 3 k 0) (e' 4 0 0) k i * e' 0 (n + k) 0 := by
      intro i hi
      rw [hz (n + i) (by omega)]
      simp only [rhsUA, if_neg (show ¬ n + i < n by omega), Nat.add_sub_cancel_left]
    have hqu : ∀ i < m, quadUA n m B C e' i = ∑ k ∈ Finset.range n,
        B (fun k => e' 0 k 0) (fun k => e' 2 k 0) (fun k => e' 3 k 0) (e' 4 0 0) k i * e' 0 (n + k) 0 := fun i hi => by
      simp only [quadUA, if_pos hi]
    have hqp : ∀ i, quadUA n m B C e' (m + i) = ∑ k ∈ Finset.range n,
        C (fun k => e' 0 k 0) (fun k => e' 2 k 0) (fun k => e' 3 k 0) (e' 4 0 0) k i * e' 0 (n + k) 0 := fun i => by
      simp only [quadUA, if_neg (show ¬ m + i < m by omega), Nat.add_sub_cancel_left]
    rw [nx, nu, np]
    set A := J (fun k => e' 0 k 0) (fun k => e' 2 k 0) (fun k => e' 3 k 0) (e' 4 0 0)
    set B' := B (fun k => e' 0 k 0) (fun k => e' 2 k 0) (fun k => e' 3 k 0) (e' 4 0 0)
    set C' := C (fun k => e' 0 k 0) (fun k => e' 2 k 0) (fun k => e' 3 k 0) (e' 4 0 0)
    change ∑ i ∈ Finset.range n, (e' (freshI "xdot") (n + i) 0 * v i + e' 0 (n + i) 0 * w i) =
      ∑ k ∈ Finset.range m, quadUA n m B C e' k * μ k + ∑ k ∈ Finset.range l, quadUA n m B C e' (m + k) * π k
    rw [Finset.sum_congr rfl fun i hi => by rw [hl i (Finset.mem_range.mp hi), hw i (Finset.mem_range.mp hi)],
      Finset.sum_congr (s₁ := Finset.range m) rfl fun k hk => by rw [hqu k (Finset.mem_range.mp hk)],
      Finset.sum_congr (s₁ := Finset.range l) rfl fun k hk => by rw [hqp k]]
    simp only [mul_add, Finset.sum_add_distrib, Finset.mul_sum, Finset.sum_mul, neg_mul, Finset.sum_neg_distrib]
    have e1 : ∑ i ∈ Finset.range n, ∑ k ∈ Finset.range n, A k i * e' 0 (n + k) 0 * v i =
        ∑ i ∈ Finset.range n, ∑ k ∈ Finset.range n, e' 0 (n + i) 0 * (A i k * v k) := by
      rw [Finset.sum_comm]
      exact Finset.sum_congr rfl fun i _ => Finset.sum_congr rfl fun k _ => by ring
    have e2 : ∑ i ∈ Finset.range m, ∑ k ∈ Finset.range n, B' k i * e' 0 (n + k) 0 * μ i =
        ∑ i ∈ Finset.range n, ∑ k ∈ Finset.range m, e' 0 (n + i) 0 * (B' i k * μ k) := by
      rw [Finset.sum_comm]
      exact Finset.sum_congr rfl fun i _ => Finset.sum_congr rfl fun k _ => by ring
    have e3 : ∑ i ∈ Finset.range l, ∑ k ∈ Finset.range n, C' k i * e' 0 (n + k) 0 * π i =
        ∑ i ∈ Finset.range n, ∑ k ∈ Finset.range l, e' 0 (n + i) 0 * (C' i k * π k) := by
      rw [Finset.sum_comm]
      exact Finset.sum_congr rfl fun i _ => Finset.sum_congr rfl fun k _ => by ring
    rw [e1, e2, e3]
    ring

/-- The right-hand side of the tangent model: `f` and `J v + B μ + C π`. -/
noncomputable def rhsUT (n m l : ℕ) (f : (ℕ → ℝ) → (ℕ → ℝ) → (ℕ → ℝ) → ℝ → ℕ → ℝ)
    (J B C : (ℕ → ℝ) → (ℕ → ℝ) → (ℕ → ℝ) → ℝ → ℕ → ℕ → ℝ) : Env ℝ → ℕ → ℝ := fun env i =>
  if i < n then f (fun k => env 0 k 0) (fun k => env 2 k 0) (fun k => env 3 k 0) (env 4 0 0) i
  else ∑ k ∈ Finset.range n, J (fun k => env 0 k 0) (fun k => env 2 k 0) (fun k => env 3 k 0) (env 4 0 0) (i - n) k * env 0 (n + k) 0 +
    (∑ k ∈ Finset.range m, B (fun k => env 0 k 0) (fun k => env 2 k 0) (fun k => env 3 k 0) (env 4 0 0) (i - n) k * env 2 (m + k) 0 +
    ∑ k ∈ Finset.range l, C (fun k => env 0 k 0) (fun k => env 2 k 0) (fun k => env 3 k 0) (env 4 0 0) (i - n) k * env 3 (l + k) 0)

/-- The tangent model of `x' = f(x, u, p, t)`. -/
theorem linearTangentU {n m l : ℕ} {f : (ℕ → ℝ) → (ℕ → ℝ) → (ℕ → ℝ) → ℝ → ℕ → ℝ}
    {J B C : (ℕ → ℝ) → (ℕ → ℝ) → (ℕ → ℝ) → ℝ → ℕ → ℕ → ℝ} (hJ : IsJacobians n m l f J B C) (freshI : String → ℕ) (g g' : Env ℝ → ℕ → ℝ) :
    LinearTangent (odeUD freshI n m l 0 (rhsU f) g) (odeUD freshI (n + n) (m + m) (l + l) 0 (rhsUT n m l f J B C) g')
      (.sym (freshI "xdot") n) (.sym (freshI "xdot") (n + n)) (odeRes freshI n (rhsU f)) (odeRes freshI (n + n) (rhsUT n m l f J B C))
      none := by
  have nx : ∀ n m l q f g, (odeUD freshI n m l q f g).nx = n := fun n m l q f g => by simp [DaeObj.nx, odeUD, MXExpr.numel, MXExpr.sym]
  have nu : ∀ n m l q f g, (odeUD freshI n m l q f g).nu = m := fun n m l q f g => by simp [DaeObj.nu, odeUD, MXExpr.numel, MXExpr.sym]
  have np : ∀ n m l q f g, (odeUD freshI n m l q f g).np = l := fun n m l q f g => by simp [DaeObj.np, odeUD, MXExpr.numel, MXExpr.sym]
  have hlin : ∀ e e' : Env ℝ, (∀ i < n, e' 0 i 0 = e 0 i 0) → (∀ i < m, e' 2 i 0 = e 2 i 0) → (∀ i < l, e' 3 i 0 = e 3 i 0) →
      e 4 0 0 = e' 4 0 0 → (∀ i < n, rhsUT n m l f J B C e' i = rhsU f e i) ∧ ∀ i < n, rhsUT n m l f J B C e' (n + i) =
        ∑ k ∈ Finset.range n, J (fun k => e 0 k 0) (fun k => e 2 k 0) (fun k => e 3 k 0) (e 4 0 0) i k * e' 0 (n + k) 0 +
        (∑ k ∈ Finset.range m, B (fun k => e 0 k 0) (fun k => e 2 k 0) (fun k => e 3 k 0) (e 4 0 0) i k * e' 2 (m + k) 0 +
        ∑ k ∈ Finset.range l, C (fun k => e 0 k 0) (fun k => e 2 k 0) (fun k => e 3 k 0) (e 4 0 0) i k * e' 3 (l + k) 0) := by
    intro e e' hx hu hp ht
    have hc := hJ.congr _ _ _ _ _ _ (e 4 0 0) hx hu hp
    refine ⟨fun i hi => ?_, fun i hi => ?_⟩
    · simp only [rhsUT, rhsU, if_pos hi, ← ht]
      exact (hc i hi).1
    · simp only [rhsUT, if_neg (show ¬ n + i < n by omega), Nat.add_sub_cancel_left, ← ht]
      rw [Finset.sum_congr rfl fun k hk => by rw [(hc i hi).2.1 k (Finset.mem_range.mp hk)],
        Finset.sum_congr (s₁ := Finset.range m) rfl fun k hk => by rw [(hc i hi).2.2.1 k (Finset.mem_range.mp hk)],
        Finset.sum_congr (s₁ := Finset.range l) rfl fun k hk => by rw [(hc i hi).2.2.2 k (Finset.mem_range.mp hk)]]
  have key : ∀ e e', TangentCurve (odeUD freshI n m l 0 (rhsU f) g) (odeUD freshI (n + n) (m + m) (l + l) 0 (rhsUT n m l f J B C) g')
      (.sym (freshI "xdot") n) (.sym (freshI "xdot") (n + n)) none e e' → ∀ i < n, e' (freshI "xdot") i 0 = e 0 (freshI "xdot") i 0 ∧
      HasDerivAt (fun ε => e ε (freshI "xdot") i 0) (e' (freshI "xdot") (n + i) 0) 0 ∧ rhsUT n m l f J B C e' i = rhsU f (e 0) i ∧
      HasDerivAt (fun ε => rhsU f (e ε) i) (rhsUT n m l f J B C e' (n + i)) 0 := by
    intro e e' h i hi
    have hx := h.x
    have hk := h.xdot
    have hu := h.u
    have hp := h.p
    have ht := h.t
    rw [nx] at hx hk
    rw [nu] at hu
    rw [np] at hp
    change ∀ ε, e ε 4 0 0 = e' 4 0 0 at ht
    obtain ⟨l1, l2⟩ := hlin (e 0) e' (fun k hk => (hx k hk).1) (fun k hk => (hu k hk).1) (fun k hk => (hp k hk).1) (ht 0)
    refine ⟨(hk i hi).1, (hk i hi).2, l1 i hi, ?_⟩
    rw [l2 i hi]
    have := hJ.deriv (fun ε k => e ε 0 k 0) (fun ε k => e ε 2 k 0) (fun ε k => e ε 3 k 0) (fun k => e' 0 (n + k) 0) (fun k => e' 2 (m + k) 0)
      (fun k => e' 3 (l + k) 0) (e 0 4 0 0) (fun k hk => (hx k hk).2) (fun k hk => (hu k hk).2) (fun k hk => (hp k hk).2) i hi
    refine this.congr_of_eventuallyEq (Eventually.of_forall fun ε => ?_)
    simp only [rhsU, ht]
  refine ⟨⟨⟨by rw [nx, nx], rfl, by rw [nu, nu], by rw [np, np], rfl, fun e e' h hz => ?_, fun e e' h hz i hi => absurd hi (Nat.not_lt_zero _)⟩,
    fun e e' h hz i hi => ?_⟩, fun e he => ?_⟩
  · rw [ode_residual]
    intro i hi
    have hz' : ∀ i < n, ∀ᶠ ε in 𝓝 0, e ε (freshI "xdot") i 0 = rhsU f (e ε) i := fun i hi =>
      hz.mono fun ε hε => (ode_residual freshI n (rhsU f) (e ε)).mp hε i hi
    by_cases hlt : i < n
    · obtain ⟨k0, -, f0, -⟩ := key e e' h i hlt
      rw [k0, f0, (hz' i hlt).self_of_nhds]
    · obtain ⟨k, rfl⟩ := Nat.exists_eq_add_of_le (not_lt.mp hlt)
      obtain ⟨-, k1, -, f1⟩ := key e e' h k (by omega)
      exact k1.unique (f1.congr_of_eventuallyEq (hz' k (by omega)))
  · change i < n at hi
    rw [ode_residual] at hz
    obtain ⟨k0, k1, f0, f1⟩ := key e e' h i hi
    have z0 := hz i (by omega)
    have z1 := hz (n + i) (by omega)
    have hr : ∀ ε, (odeRes freshI n (rhsU f)).val (e ε) i 0 = e ε (freshI "xdot") i 0 - rhsU f (e ε) i := fun ε => by
      simp [odeRes, hi]
    refine ⟨by rw [hr, ← k0, ← f0, z0, sub_self], ?_⟩
    rw [funext hr]
    have := k1.sub f1
    rwa [z1, sub_self] at this
  · refine ⟨fun i k => if i = k then 1 else 0, fun i k => -J (fun k => e 0 k 0) (fun k => e 2 k 0) (fun k => e 3 k 0) (e 4 0 0) i k,
      fun _ _ => 0, fun i k => -B (fun k => e 0 k 0) (fun k => e 2 k 0) (fun k => e 3 k 0) (e 4 0 0) i k,
      fun i k => -C (fun k => e 0 k 0) (fun k => e 2 k 0) (fun k => e 3 k 0) (e 4 0 0) i k, fun e' h => ?_⟩
    obtain ⟨hk, hx, -, hu, hp, ht, -⟩ := h
    rw [nx] at hk hx
    rw [nu] at hu
    rw [np] at hp
    obtain ⟨l1, l2⟩ := hlin e e' hx hu hp ht
    have r0 := (ode_residual freshI n (rhsU f) e).mp he
    change ∀ i < n, e' (freshI "xdot") i 0 = e (freshI "xdot") i 0 at hk
    have hnz : (odeUD freshI n m l 0 (rhsU f) g).nz = 0 := rfl
    rw [ode_residual, nx, nu, np, hnz]
    simp only [Finset.sum_range_zero, add_zero, ite_mul, one_mul, zero_mul, neg_mul, Finset.sum_neg_distrib]
    have hsum : ∀ i < n, ∑ k ∈ Finset.range n, (if i = k then (MXExpr.sym (freshI "xdot") (n + n)).val e' (n + k) 0 else 0) =
        e' (freshI "xdot") (n + i) 0 := fun i hi => by
      rw [Finset.sum_ite_eq (Finset.range n) i, if_pos (Finset.mem_range.mpr hi)]
      rfl
    have hiff : ∀ (a b c d : ℝ), a + -b + (-c + -d) = 0 ↔ a = b + (c + d) := fun a b c d =>
      ⟨fun h => by linarith, fun h => by linarith⟩
    constructor
    · intro hz i hi
      change i < n at hi
      rw [hsum i hi]
      refine (hiff _ _ _ _).mpr ?_
      rw [hz (n + i) (by omega), l2 i hi]
      rfl
    · intro hz i hi
      by_cases hlt : i < n
      · rw [hk i hlt, r0 i hlt, l1 i hlt]
      · obtain ⟨k, rfl⟩ := Nat.exists_eq_add_of_le (not_lt.mp hlt)
        have := hz k (show k < n by omega)
        rw [hsum k (by omega)] at this
        rw [l2 k (by omega)]
        exact (hiff _ _ _ _).mp this

/-! ## Non-vacuity -/

/-- One step of the midpoint rule from 0 to 1. -/
theorem odeU_step (freshI : String → ℕ) (n m l q : ℕ) (f g : Env ℝ → ℕ → ℝ) (F : CsFn ℝ)
    (pre : SchemePre freshI (fun _ _ => .ok [1 / 2]) idealCsFunction (odeUO n m l q f g) [0, 1] 1 "legendre" none
      (odeUD freshI n m l q f g) (.sym (freshI "xdot") n) (odeRes freshI n f) [1 / 2] F) (s : Scheme ℝ)
    (hs : Scheme.new exFresh freshI (fun _ _ => .ok [1 / 2]) idealCsFunction (odeUO n m l q f g) [0, 1] 1 "legendre" none = .ok s)
    (env : Env ℝ) : (∀ e : Env ℝ, (∀ i < n, e 0 i 0 = env 0 i 0 + env 1 i 0 * (1 / 2)) → (∀ i < m, e 2 i 0 = env 3 i 0) →
        (∀ i < l, e 3 i 0 = env 4 i 0) → e 4 0 0 = 1 / 2 → ∀ i < n, env 1 i 0 = f e i) →
      (∀ i < n, env 0 i 1 = env 0 i 0 + env 1 i 0) → (∀ v ∈ s.eq.vals env, v = 0) ∧
      ∃ e : Env ℝ, (∀ i < n, e 0 i 0 = env 0 i 0 + env 1 i 0 * (1 / 2)) ∧ (∀ i < m, e 2 i 0 = env 3 i 0) ∧
        (∀ i < l, e 3 i 0 = env 4 i 0) ∧ ∀ i < q, s.q.val env i 1 = g e i := by
  intro hk hx
  have b := pre.built hs
  obtain ⟨hA, hB⟩ := wA_half
  have hn0 : nd ([0, 1] : List ℝ) (0 + 1) - nd ([0, 1] : List ℝ) 0 = 1 := by norm_num
  have hN1 : ([0, 1] : List ℝ).length - 1 = 1 := rfl
  have hc : 0 < (([0, 1] : List ℝ).length - 1) * 1 := by simp
  obtain ⟨e, hat⟩ := exists_atPoint idealCsFunction_spec pre b.toCore env hc
  have o := hat.out idealCsFunction_spec pre b.toCore hc
  have hex : ∀ i < n, e 0 i 0 = env 0 i 0 + env 1 i 0 * (1 / 2) := fun i hi => by
    refine (hat.x i hi).trans ?_
    have := b.X env i 0 0 (by simp) (by simp)
    simp only [mul_one, zero_add, Finset.sum_range_one, hA] at this
    rw [this]
    norm_num
    rfl
  have heu : ∀ i < m, e 2 i 0 = env 3 i 0 := fun i hi => by
    refine (hat.u i hi).trans ?_
    rw [b.u, b.M_eq]
    rfl
  have hep : ∀ i < l, e 3 i 0 = env 4 i 0 := fun i hi => by
    refine (hat.p i hi).trans ?_
    rw [b.p]
    rfl
  have het : e 4 0 0 = 1 / 2 := by
    refine hat.t.trans ?_
    have := b.tc 0 0 (by simp) (by simp)
    simp only [mul_one, zero_add] at this
    rw [this]
    norm_num
  refine ⟨(Scheme.eq_zero_iff pre b env).mpr ⟨?_, ?_, fun h => by cases h⟩, e, hex, heu, hep, fun i hi => ?_⟩
  · intro c hc' i hi
    obtain rfl : c = 0 := by rw [hN1] at hc'; omega
    rw [o.1 i hi]
    refine (ode_residual freshI n f e).mpr (fun i hi => ?_) i hi 0 Nat.one_pos
    have hxd := hat.xdot i hi
    rw [b.Kd] at hxd
    exact hxd.trans (hk e hex heu hep het i hi)
  · intro k hk' i hi
    obtain rfl : k = 0 := by rw [hN1] at hk'; omega
    rw [b.cont env i 0 hk', hn0]
    simp only [Finset.sum_range_one, hB]
    have hi : i < n := by rw [pre.wf.nx] at hi; exact hi
    have := hx i hi
    show env 0 i 0 + 1 * (env 1 i (0 * 1 + 0) * 1) - env 0 i 1 = 0
    rw [this]
    ring
  · have := b.q env i 0 (by simp)
    rw [hn0, b.q_zero] at this
    simp only [zero_add, Finset.sum_range_one, hB, mul_one, one_mul, zero_mul] at this
    rw [this]
    exact o.2 i hi

/-- Exponential growth `x' = p x` with the rate as parameter. -/
def growF : (ℕ → ℝ) → (ℕ → ℝ) → (ℕ → ℝ) → ℝ → ℕ → ℝ := fun x _ p _ _ => p 0 * x 0

theorem grow_jacobians : IsJacobians 1 0 1 growF (fun _ _ p _ _ _ => p 0) (fun _ _ _ _ _ _ => 0) (fun x _ _ _ _ _ => x 0) := by
  refine ⟨fun x u p x' u' p' t hx hu hp i hi => ?_, fun x u p x' u' p' t hx hu hp i hi => ?_⟩
  · have := (hp 0 (by omega)).fun_mul (hx 0 (by omega))
    simp only [Finset.sum_range_one, Finset.sum_range_zero, zero_add, growF]
    exact this.congr_deriv (by ring)
  · simp [growF, hx 0 (by omega), hp 0 (by omega)]

/-- A step of `x' = p x` with `p = 1 + ε` from 1. -/
noncomputable def growEnv (ε : ℝ) : Env ℝ := fun id _ j =>
  if id = 0 then (if j = 0 then 1 else 1 + (1 + ε) * (2 / (1 - ε))) else if id = 1 then (1 + ε) * (2 / (1 - ε)) else if id = 4 then 1 + ε else 0

/-- The same step with `p = 1` and the adjoint state, which is 1 at the end. -/
def growAdj : Env ℝ := fun id i j =>
  if id = 0 then (if i = 0 then (if j = 0 then 1 else 3) else if j = 0 then 3 else 1) else if id = 1 then (if i = 0 then 2 else -2)
  else if id = 4 then 1 else 0

/-- C134 for one step of the midpoint rule for `x' = p x`: the quadrature of the adjoint model is the derivative of the final state with
respect to the rate, 4. -/
example (freshI : String → ℕ) (hI : 6 ≤ freshI "xdot") : ∃ s,
    Scheme.new exFresh freshI (fun _ _ => .ok [1 / 2]) idealCsFunction (odeUO 1 0 1 0 (rhsU growF) fun _ _ => 0) [0, 1] 1 "legendre" none =
      .ok s ∧ deriv (fun ε => s.x.val (growEnv ε) 0 1) 0 = 4 := by
  obtain ⟨F, pre⟩ := odeU_pre freshI hI 1 0 1 0 (rhsU growF) (fun _ _ => 0) (fun e e' hx hu hp ht => ⟨fun i hi => by
    simp [rhsU, growF, hx 0 (by omega), hp 0 (by omega)], fun _ _ => rfl⟩) rfl [0, 1] [1 / 2] (by simp) (by simp)
  obtain ⟨F', pre'⟩ := odeU_pre freshI hI (1 + 1) 0 1 (0 + 1) (rhsUA 1 growF fun _ _ p _ _ _ => p 0)
    (quadUA 1 0 (fun _ _ _ _ _ _ => 0) fun x _ _ _ _ _ => x 0) (fun e e' hx hu hp ht => by
      have h0 := hx 0 (by omega)
      have h1 := hx 1 (by omega)
      have h2 := hp 0 (by omega)
      refine ⟨fun i hi => ?_, fun i hi => ?_⟩
      · interval_cases i <;> simp [rhsUA, growF, h0, h1, h2]
      · interval_cases i; simp [quadUA, h0, h1]) rfl [0, 1] [1 / 2] (by simp) (by simp)
  obtain ⟨s, hs, b⟩ := Scheme.new_built (fresh := exFresh) false pre
  obtain ⟨s', hs', b'⟩ := Scheme.new_built (fresh := exFresh) false pre'
  refine ⟨s, hs, ?_⟩
  have hev : ∀ᶠ ε : ℝ in 𝓝 0, 1 - ε ≠ 0 :=
    (continuous_const.sub continuous_id).continuousAt.eventually_ne (by simp)
  have h' := odeU_step freshI (1 + 1) 0 1 (0 + 1) _ _ F' pre' s' hs' growAdj (fun e hx hu hp ht i hi => by
      have h0 := hx 0 (by omega)
      have h1 := hx 1 (by omega)
      have h2 := hp 0 (by omega)
      simp [growAdj] at h0 h1 h2
      interval_cases i
      · simp [rhsUA, growF, growAdj, h0, h2]; norm_num
      · simp [rhsUA, growAdj, h1, h2]; norm_num) (fun i hi => by interval_cases i <;> simp [growAdj] <;> norm_num)
  obtain ⟨h1, e, ex, -, -, eq⟩ := h'
  have key := C134_adjoint exFresh exFresh freshI freshI _ _ _ _ _ _ _ _ _ _ _ _ _ _ _ F F' false s s' idealCsFunction_spec pre pre' hs
    hs' (by simp) isGauss_midpoint_real (C134_law grow_jacobians freshI 0 fun _ _ => 0) growEnv growAdj
    ⟨hev.mono fun ε hε => (odeU_step freshI 1 0 1 0 _ _ F pre s hs (growEnv ε) (fun e hx hu hp ht i hi => by
        have h0 := hx 0 (by omega)
        have h2 := hp 0 (by omega)
        simp [growEnv] at h0 h2
        obtain rfl : i = 0 := by omega
        simp only [rhsU, growF, growEnv, h0, h2]
        simp
        left
        field_simp
        ring) (fun i hi => by simp [growEnv])).1,
      fun n hn i hi => by
        rw [b.x]
        change DifferentiableAt ℝ (fun ε => growEnv ε 0 i n) 0
        simp only [growEnv, if_true]
        split_ifs
        · fun_prop
        · fun_prop (disch := simp),
      fun c hc i hi => by
        rw [b.Kd]
        change DifferentiableAt ℝ (fun ε => growEnv ε 1 i c) 0
        simp only [growEnv, one_ne_zero, if_true, if_false]
        fun_prop (disch := simp), fun c hc i hi => absurd hi (Nat.not_lt_zero _), fun n hn i hi => absurd hi (Nat.not_lt_zero _),
      fun c hc i hi => by
        rw [b.p]
        change DifferentiableAt ℝ (fun ε => growEnv ε 4 i c) 0
        exact differentiableAt_id.const_add 1⟩ h1
    ⟨fun n hn i hi => by
        rw [b.x, b'.x]
        obtain rfl : i = 0 := by change i < 1 at hi; omega
        change growAdj 0 0 n = growEnv 0 0 0 n
        simp [growAdj, growEnv]; norm_num,
      fun c hc i hi => by
        rw [b.Kd, b'.Kd]
        obtain rfl : i = 0 := by change i < 1 at hi; omega
        change growAdj 1 0 c = growEnv 0 1 0 c
        simp [growAdj, growEnv], fun c hc i hi => absurd hi (Nat.not_lt_zero _), fun n hn i hi => absurd hi (Nat.not_lt_zero _),
      fun c hc i hi => by
        rw [b.p, b'.p]
        change growAdj 4 i c = growEnv 0 4 i c
        simp [growAdj, growEnv]⟩ 1 (by rw [b.N_eq]; simp)
  have hq : s'.q.val growAdj 0 1 = 4 := by
    rw [eq 0 (by omega)]
    have h0 := ex 0 (by omega)
    have h1 := ex 1 (by omega)
    simp [growAdj] at h0 h1
    simp [quadUA, h0, h1]
    norm_num
  have nx : (odeUD freshI 1 0 1 0 (rhsU growF) fun _ _ => 0).nx = 1 := rfl
  have nu : (odeUD freshI 1 0 1 0 (rhsU growF) fun _ _ => 0).nu = 0 := rfl
  have np : (odeUD freshI 1 0 1 0 (rhsU growF) fun _ _ => 0).np = 1 := rfl
  rw [nx, nu, np] at key
  simp only [Finset.sum_range_one, Finset.sum_range_zero, add_zero, zero_add, hq] at key
  have hx1 : s'.x.val growAdj 1 1 = 1 := by
    rw [b'.x]
    change growAdj 0 1 1 = 1
    simp [growAdj]
  have hd0 : deriv (fun ε => s.x.val (growEnv ε) 0 0) 0 = 0 := by
    rw [b.x]
    change deriv (fun ε => growEnv ε 0 0 0) 0 = 0
    simp [growEnv]
  have hdp : deriv (fun ε => s.p.val (growEnv ε) 0 0) 0 = 1 := by
    rw [b.p]
    change deriv (fun ε => growEnv ε 4 0 0) 0 = 1
    simp [growEnv]
  rw [hx1, hd0, hdp] at key
  linarith

/-- A pendulum with a torque: `q' = p`, `p' = -sin(q) + u`. -/
noncomputable def torqueF : (ℕ → ℝ) → (ℕ → ℝ) → (ℕ → ℝ) → ℝ → ℕ → ℝ := fun x u _ _ i => if i = 0 then x 1 else -Real.sin (x 0) + u 0

/-- Its derivative with respect to the states. -/
noncomputable def torqueJ : (ℕ → ℝ) → (ℕ → ℝ) → (ℕ → ℝ) → ℝ → ℕ → ℕ → ℝ := fun x _ _ _ i k =>
  if i = 0 then (if k = 1 then 1 else 0) else if k = 0 then -Real.cos (x 0) else 0

/-- Its derivative with respect to the input. -/
def torqueB : (ℕ → ℝ) → (ℕ → ℝ) → (ℕ → ℝ) → ℝ → ℕ → ℕ → ℝ := fun _ _ _ _ i _ => if i = 0 then 0 else 1

theorem torque_jacobians : IsJacobians 2 1 0 torqueF torqueJ torqueB (fun _ _ _ _ _ _ => 0) := by
  refine ⟨fun x u p x' u' p' t hx hu hp i hi => ?_, fun x u p x' u' p' t hx hu hp i hi => ?_⟩
  · have h0 := hx 0 (by omega)
    have h1 := hx 1 (by omega)
    have h2 := hu 0 (by omega)
    interval_cases i
    · simpa [torqueF, torqueJ, torqueB, Finset.sum_range_succ] using h1
    · simpa [torqueF, torqueJ, torqueB, Finset.sum_range_succ] using h0.sin.fun_neg.fun_add h2
  · simp [torqueF, torqueJ, torqueB, hx 0 (by omega), hx 1 (by omega), hu 0 (by omega)]

theorem torque_regular (freshI : String → ℕ) : RegularDae (odeUD freshI 2 1 0 0 (rhsU torqueF) fun _ _ => 0) (.sym (freshI "xdot") 2)
    (odeRes freshI 2 (rhsU torqueF)) 1 0 1 0 := by
  refine ⟨by norm_num, fun e e' hu _ _ _ δ ρ _ _ hδ hρ => ⟨fun i hi => ?_, fun k hk => absurd hk (Nat.not_lt_zero _)⟩⟩
  change i < 2 at hi
  have h0 : |e 0 0 0 - e' 0 0 0| ≤ δ := hδ 0 (show 0 < 2 by omega)
  have h1 : |e 0 1 0 - e' 0 1 0| ≤ δ := hδ 1 (show 1 < 2 by omega)
  have hu0 : e 2 0 0 = e' 2 0 0 := hu 0 Nat.one_pos
  have h2 := hρ i hi
  have h3 := (Real.abs_sin_sub_sin_le (e 0 0 0) (e' 0 0 0)).trans h0
  change |e (freshI "xdot") i 0 - e' (freshI "xdot") i 0| ≤ _
  rw [abs_le] at h0 h1 h2 h3 ⊢
  interval_cases i <;> simp [odeRes, rhsU, torqueF, hu0] at h2 <;> constructor <;> linarith [h0.1, h0.2, h1.1, h1.2, h2.1, h2.2, h3.1, h3.2]

/-- C134 (integrator) for two steps of the midpoint rule for the pendulum and any rootfinder: the quadrature of the adjoint model is the
derivative of the final state with respect to a constant torque, weighted with the final adjoint state. -/
example (freshI : String → ℕ) (hI : 6 ≤ freshI "xdot") (a b c l₀ l₁ : ℝ)
    (rootfinder : (List ℝ → List ℝ) → List ℝ → Except PyErr (List ℝ)) (hrf : IsRootfinder rootfinder) : ∃ g g',
      Integrator.new exFresh freshI (fun _ _ => .ok [1 / 2]) idealCsFunction (odeUO 2 1 0 0 (rhsU torqueF) fun _ _ => 0) [0, 1, 2] 1
        "legendre" none = .ok g ∧
      Integrator.new exFresh freshI (fun _ _ => .ok [1 / 2]) idealCsFunction (odeUO (2 + 2) 1 0 (1 + 0) (rhsUA 2 torqueF torqueJ)
        (quadUA 2 1 torqueB fun _ _ _ _ _ _ => 0)) [0, 1, 2] 1 "legendre" none = .ok g' ∧
      ∀ z0 par (out : ℝ → IntegratorOut ℝ) out',
      (∀ ε, g.call rootfinder ⟨2, 1, fun i _ => if i = 0 then a else b⟩ z0 ⟨1, 2, fun _ _ => c + ε⟩ par = .ok (out ε)) →
      g'.call rootfinder ⟨4, 1, fun i _ => nd [a, b, l₀, l₁] i⟩ z0 ⟨1, 2, fun _ _ => c + 0⟩ par = .ok out' →
      out'.x.e 2 2 * deriv (fun ε => (out ε).x.e 0 2) 0 + out'.x.e 3 2 * deriv (fun ε => (out ε).x.e 1 2) 0 = out'.qf.e 0 0 := by
  obtain ⟨F, pre⟩ := odeU_pre freshI hI 2 1 0 0 (rhsU torqueF) (fun _ _ => 0) (fun e e' hx hu hp ht => ⟨fun i hi =>
    (torque_jacobians.congr _ _ _ _ _ _ _ hx hu hp i hi).1.trans (by rw [rhsU, ht]), fun _ _ => rfl⟩) rfl [0, 1, 2] [1 / 2] (by simp)
    (by simp)
  obtain ⟨F', pre'⟩ := odeU_pre freshI hI (2 + 2) 1 0 (1 + 0) (rhsUA 2 torqueF torqueJ) (quadUA 2 1 torqueB fun _ _ _ _ _ _ => 0)
    (fun e e' hx hu hp ht => by
      have h0 := hx 0 (by omega)
      have h1 := hx 1 (by omega)
      have h2 := hx 2 (by omega)
      have h3 := hx 3 (by omega)
      have h4 := hu 0 (by omega)
      refine ⟨fun i hi => ?_, fun i hi => ?_⟩
      · interval_cases i <;> simp [rhsUA, torqueF, torqueJ, Finset.sum_range_succ, h0, h1, h2, h3, h4]
      · interval_cases i; simp [quadUA, torqueB, Finset.sum_range_succ, h3]) rfl [0, 1, 2] [1 / 2] (by simp) (by simp)
  obtain ⟨F₂, pre₂⟩ := odeU_pre freshI hI (2 + 2) (1 + 1) (0 + 0) 0 (rhsUT 2 1 0 torqueF torqueJ torqueB fun _ _ _ _ _ _ => 0) (fun _ _ => 0)
    (fun e e' hx hu hp ht => by
      have h0 := hx 0 (by omega)
      have h1 := hx 1 (by omega)
      have h2 := hx 2 (by omega)
      have h3 := hx 3 (by omega)
      have h4 := hu 0 (by omega)
      have h5 := hu 1 (by omega)
      refine ⟨fun i hi => ?_, fun i hi => rfl⟩
      interval_cases i <;> simp [rhsUT, torqueF, torqueJ, torqueB, Finset.sum_range_succ, h0, h1, h2, h3, h4, h5]) rfl [0, 1, 2] [1 / 2]
    (by simp) (by simp)
  obtain ⟨T, hT, hA0, hB0⟩ := half_tableau
  obtain ⟨g, g', hg, hg', key⟩ := C134_integrator exFresh exFresh freshI freshI _ _ _ _ _ _ _ _ _ _ _ _ _ _ _ F F' exFresh freshI _ _ _ _ F₂
    idealCsFunction_spec pre pre' pre₂ (by constructor <;> decide) (by constructor <;> decide) (by constructor <;> decide) rfl
    (linearTangentU torque_jacobians freshI (fun _ _ => 0) fun _ _ => 0) 1 0 1 0 (1 / 2) (torque_regular freshI) T hT (1 / 2) 1 1
    (fun j hj => by
      obtain rfl : j = 0 := by simp at hj; omega
      simp [hA0]) (by simp [hB0]) (fun n hn => by
        have hn : n < 2 := by simpa using hn
        interval_cases n <;> norm_num [nd]) (by norm_num) (by norm_num) (by simp) isGauss_midpoint_real
    (C134_law torque_jacobians freshI 0 fun _ _ => 0) rootfinder hrf
  refine ⟨g, g', hg, hg', fun z0 par out out' h h' => ?_⟩
  have hk := key (fun _ => ⟨2, 1, fun i _ => if i = 0 then a else b⟩) (fun _ => z0) (fun ε => ⟨1, 2, fun _ _ => c + ε⟩) (fun _ => par)
    ⟨4, 1, fun i _ => nd [a, b, l₀, l₁] i⟩ z0 par (fun _ => 1) out out' (fun i hi j hj => differentiableAt_const _)
    (fun k hk n hn => (hasDerivAt_id 0).const_add c) (fun i hi => by
      change i < 2 at hi
      interval_cases i <;> simp [nd]) (Eventually.of_forall h) h'
  have nx : (odeUD freshI 2 1 0 0 (rhsU torqueF) fun _ _ => 0).nx = 2 := rfl
  have nu : (odeUD freshI 2 1 0 0 (rhsU torqueF) fun _ _ => 0).nu = 1 := rfl
  rw [nx, nu] at hk
  simpa [Finset.sum_range_succ] using hk

/-- The model `x' = x / 2`. -/
noncomputable def halfF : (ℕ → ℝ) → (ℕ → ℝ) → (ℕ → ℝ) → ℝ → ℕ → ℝ := fun x _ _ _ _ => x 0 / 2

theorem half_jacobians : IsJacobians 1 0 0 halfF (fun _ _ _ _ _ _ => 1 / 2) (fun _ _ _ _ _ _ => 0) (fun _ _ _ _ _ _ => 0) := by
  refine ⟨fun x u p x' u' p' t hx hu hp i hi => ?_, fun x u p x' u' p' t hx hu hp i hi => ?_⟩
  · have := (hx 0 (by omega)).div_const 2
    simp only [Finset.sum_range_one, Finset.sum_range_zero, add_zero, halfF]
    exact this.congr_deriv (by ring)
  · simp [halfF, hx 0 (by omega)]

/-- A step of length 1 of the implicit Euler method for `x' = x / 2` and its adjoint `λ' = -λ / 2`. -/
noncomputable def halfEnv (a c : ℝ) : Env ℝ := fun id i j =>
  if id = 0 then (if i = 0 then (if j = 0 then a else 2 * a) else if j = 0 then c else 2 / 3 * c)
  else if id = 1 then (if i = 0 then a else -(1 / 3) * c) else 0

/-- **C134** (other nodes) The Gauss nodes are needed: for one step of the implicit Euler method (the Radau node 1) for `x' = x / 2` all
other hypotheses of `C134_adjoint` hold, and the product of adjoint state and derivative grows from 1 to 4/3. -/
theorem C134_radau (freshI : String → ℕ) (hI : 6 ≤ freshI "xdot") : ∃ F F' s s',
    SchemePre freshI (fun _ _ => .ok [1]) idealCsFunction (odeUO 1 0 0 0 (rhsU halfF) fun _ _ => 0) [0, 1] 1 "legendre" none
      (odeUD freshI 1 0 0 0 (rhsU halfF) fun _ _ => 0) (.sym (freshI "xdot") 1) (odeRes freshI 1 (rhsU halfF)) [1] F ∧
    SchemePre freshI (fun _ _ => .ok [1]) idealCsFunction (odeUO (1 + 1) 0 0 (0 + 0) (rhsUA 1 halfF fun _ _ _ _ _ _ => 1 / 2)
      (quadUA 1 0 (fun _ _ _ _ _ _ => 0) fun _ _ _ _ _ _ => 0)) [0, 1] 1 "legendre" none
      (odeUD freshI (1 + 1) 0 0 (0 + 0) (rhsUA 1 halfF fun _ _ _ _ _ _ => 1 / 2) (quadUA 1 0 (fun _ _ _ _ _ _ => 0) fun _ _ _ _ _ _ => 0))
      (.sym (freshI "xdot") (1 + 1)) (odeRes freshI (1 + 1) (rhsUA 1 halfF fun _ _ _ _ _ _ => 1 / 2)) [1] F' ∧
    Scheme.new exFresh freshI (fun _ _ => .ok [1]) idealCsFunction (odeUO 1 0 0 0 (rhsU halfF) fun _ _ => 0) [0, 1] 1 "legendre" none = .ok s ∧
    Scheme.new exFresh freshI (fun _ _ => .ok [1]) idealCsFunction (odeUO (1 + 1) 0 0 (0 + 0) (rhsUA 1 halfF fun _ _ _ _ _ _ => 1 / 2)
      (quadUA 1 0 (fun _ _ _ _ _ _ => 0) fun _ _ _ _ _ _ => 0)) [0, 1] 1 "legendre" none = .ok s' ∧
    Adjoint (odeUD freshI 1 0 0 0 (rhsU halfF) fun _ _ => 0) (odeUD freshI (1 + 1) 0 0 (0 + 0) (rhsUA 1 halfF fun _ _ _ _ _ _ => 1 / 2)
      (quadUA 1 0 (fun _ _ _ _ _ _ => 0) fun _ _ _ _ _ _ => 0)) (.sym (freshI "xdot") 1) (.sym (freshI "xdot") (1 + 1))
      (odeRes freshI 1 (rhsU halfF)) (odeRes freshI (1 + 1) (rhsUA 1 halfF fun _ _ _ _ _ _ => 1 / 2)) none ∧
    ∃ (env : ℝ → Env ℝ) (env' : Env ℝ), DiffVars s (odeUD freshI 1 0 0 0 (rhsU halfF) fun _ _ => 0) false env ∧
      (∀ v ∈ s'.eq.vals env', v = 0) ∧ ExtendsVars s s' (odeUD freshI 1 0 0 0 (rhsU halfF) fun _ _ => 0) false (env 0) env' ∧
      ∀ n ≤ s.N, s'.x.val env' 1 n * deriv (fun ε => s.x.val (env ε) 0 n) 0 = if n = 0 then 1 else 4 / 3 := by
  obtain ⟨F, pre⟩ := odeU_pre freshI hI 1 0 0 0 (rhsU halfF) (fun _ _ => 0) (fun e e' hx hu hp ht => ⟨fun i hi => by
    simp [rhsU, halfF, hx 0 (by omega)], fun _ _ => rfl⟩) rfl [0, 1] [1] (by simp) (by simp)
  obtain ⟨F', pre'⟩ := odeU_pre freshI hI (1 + 1) 0 0 (0 + 0) (rhsUA 1 halfF fun _ _ _ _ _ _ => 1 / 2)
    (quadUA 1 0 (fun _ _ _ _ _ _ => 0) fun _ _ _ _ _ _ => 0) (fun e e' hx hu hp ht => by
      have h0 := hx 0 (by omega)
      have h1 := hx 1 (by omega)
      refine ⟨fun i hi => ?_, fun i hi => by omega⟩
      interval_cases i <;> simp [rhsUA, halfF, h0, h1]) rfl [0, 1] [1] (by simp) (by simp)
  obtain ⟨s, hs, b⟩ := Scheme.new_built (fresh := exFresh) false pre
  obtain ⟨s', hs', b'⟩ := Scheme.new_built (fresh := exFresh) false pre'
  have hN1 : ([0, 1] : List ℝ).length - 1 = 1 := rfl
  have hn0 : nd ([0, 1] : List ℝ) (0 + 1) - nd ([0, 1] : List ℝ) 0 = 1 := by norm_num
  have hA : wA ([1] : List ℝ) 0 0 = 1 ∧ wb ([1] : List ℝ) 0 = 1 := by
    obtain ⟨T, hT, hA, hB, -⟩ := C09_butcher_consistent ([1] : List ℝ) (by simp) (by simp)
    obtain ⟨T', hT', -, -, -, hc, -⟩ := C08_butcher_exact ([1] : List ℝ) (by simp)
    rw [hT] at hT'
    cases hT'
    have hA0 : T.A.e [0, 0] = 1 := by
      have := hA 0 (by simp)
      rw [hc 0 (by simp)] at this
      simpa using this
    have hB0 : T.b.e [0] = 1 := by simpa using hB
    rw [butcher_ok] at hT; cases hT
    exact ⟨hA0, by simpa [NdArray.vec, wb] using hB0⟩
  have hstep : ∀ (n : ℕ) (f g : Env ℝ → ℕ → ℝ) (q : ℕ) (F : CsFn ℝ) (s : Scheme ℝ)
      (pre : SchemePre freshI (fun _ _ => .ok [1]) idealCsFunction (odeUO n 0 0 q f g) [0, 1] 1 "legendre" none
        (odeUD freshI n 0 0 q f g) (.sym (freshI "xdot") n) (odeRes freshI n f) [1] F)
      (_ : s.Built exFresh [0, 1] 1 none false (odeUD freshI n 0 0 q f g) (.sym (freshI "xdot") n) (odeRes freshI n f) [1] F)
      (a c : ℝ), (∀ e : Env ℝ, (∀ i < n, e 0 i 0 = halfEnv a c 0 i 1) → ∀ i < n, halfEnv a c 1 i 0 = f e i) → n ≤ 2 →
      ∀ v ∈ s.eq.vals (halfEnv a c), v = 0 := by
    intro n f g q F s pre b a c hf hn
    have hcont : ∀ i < 2, halfEnv a c 0 i 0 + halfEnv a c 1 i 0 = halfEnv a c 0 i 1 := fun i hi => by
      interval_cases i <;> simp [halfEnv] <;> ring
    refine (Scheme.eq_zero_iff pre b _).mpr ⟨?_, ?_, fun h => by cases h⟩
    · intro m hm i hi
      obtain rfl : m = 0 := by rw [hN1] at hm; omega
      obtain ⟨e, hat⟩ := exists_atPoint idealCsFunction_spec pre b.toCore (halfEnv a c) hm
      have o := hat.out idealCsFunction_spec pre b.toCore hm
      rw [o.1 i hi]
      refine (ode_residual freshI n f e).mpr (fun i hi => ?_) i hi 0 Nat.one_pos
      have hxd := hat.xdot i hi
      rw [b.Kd] at hxd
      refine hxd.trans (hf e (fun l hl => ?_) i hi)
      refine (hat.x l hl).trans ?_
      have := b.X (halfEnv a c) l 0 0 (by simp) (by simp)
      simp only [mul_one, zero_add, Finset.sum_range_one, hA.1] at this
      rw [this, ← hcont l (by omega)]
      norm_num
      rfl
    · intro k hk' i hi
      obtain rfl : k = 0 := by rw [hN1] at hk'; omega
      rw [b.cont _ i 0 hk', hn0]
      have hi : i < n := by rw [pre.wf.nx] at hi; exact hi
      simp only [Finset.sum_range_one, hA.2]
      change halfEnv a c 0 i 0 + 1 * (halfEnv a c 1 i (0 * 1 + 0) * 1) - halfEnv a c 0 i 1 = 0
      rw [← hcont i (by omega)]
      ring
  refine ⟨F, F', s, s', pre, pre', hs, hs', C134_law half_jacobians freshI 0 fun _ _ => 0, fun ε => halfEnv ε 0, halfEnv 0 1,
    ⟨Eventually.of_forall fun ε => hstep 1 _ _ 0 F s pre b ε 0 (fun e hx i hi => ?_) (by omega), fun n hn i hi => ?_, fun c hc i hi => ?_,
      fun c hc i hi => absurd hi (Nat.not_lt_zero _), fun n hn i hi => absurd hi (Nat.not_lt_zero _),
      fun n hn i hi => absurd hi (Nat.not_lt_zero _)⟩,
    hstep (1 + 1) _ _ _ F' s' pre' b' 0 1 (fun e hx i hi => ?_) (by omega), ⟨fun n hn i hi => ?_, fun c hc i hi => ?_,
      fun c hc i hi => absurd hi (Nat.not_lt_zero _), fun n hn i hi => absurd hi (Nat.not_lt_zero _),
      fun n hn i hi => absurd hi (Nat.not_lt_zero _)⟩, fun n hn => ?_⟩
  · have h0 := hx 0 (by omega)
    obtain rfl : i = 0 := by omega
    simp [rhsU, halfF, h0, halfEnv]
  · rw [b.x]
    change DifferentiableAt ℝ (fun ε => halfEnv ε 0 0 i n) 0
    simp only [halfEnv, if_true]
    split_ifs <;> fun_prop
  · rw [b.Kd]
    change DifferentiableAt ℝ (fun ε => halfEnv ε 0 1 i c) 0
    simp only [halfEnv, one_ne_zero, if_true, if_false]
    split_ifs <;> fun_prop
  · have h0 := hx 0 (by omega)
    have h1 := hx 1 (by omega)
    interval_cases i
    · simp [rhsUA, halfF, h0, halfEnv]
    · simp [rhsUA, h1, halfEnv]; norm_num
  · rw [b.x, b'.x]
    obtain rfl : i = 0 := by change i < 1 at hi; omega
    change halfEnv 0 1 0 0 n = halfEnv 0 0 0 0 n
    simp [halfEnv]
  · rw [b.Kd, b'.Kd]
    obtain rfl : i = 0 := by change i < 1 at hi; omega
    change halfEnv 0 1 1 0 c = halfEnv 0 0 1 0 c
    simp [halfEnv]
  · rw [b.N_eq, hN1] at hn
    rw [b.x, b'.x]
    change halfEnv 0 1 0 1 n * deriv (fun ε => halfEnv ε 0 0 0 n) 0 = _
    interval_cases n
    · simp [halfEnv]
    · simp only [halfEnv, if_true, one_ne_zero, if_false]
      rw [deriv_const_mul _ differentiableAt_id]
      simp
      norm_num

end CE
