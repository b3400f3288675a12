import Verif.Num.PropsScheme
import Mathlib.Tactic.ComputeDegree
import Mathlib.Tactic.IntervalCases

/-!
# Properties C25 (semi-explicit models), C28, C29, and an instance of the hypotheses
-/

open Polynomial

namespace CE

variable {K : Type} [Field K]

/-! ## Lemmas -/

theorem makeImplicit_parts {fresh : String → ℕ} {o d : DaeObj K} (h : o.makeImplicit fresh = .ok d) :
    d.x = o.x ∧ d.z = o.z ∧ d.u = o.u ∧ d.p = o.p ∧ d.t = o.t ∧ d.quad = o.quad ∧ d.tdp = o.tdp := by
  unfold DaeObj.makeImplicit at h
  cases hk : o.kind with
  | base => rw [hk] at h; cases h
  | implicit a b => rw [hk] at h; cases h; exact ⟨rfl, rfl, rfl, rfl, rfl, rfl, rfl⟩
  | semi ode alg =>
    rw [hk] at h
    simp only [bind, Except.bind] at h
    cases h1 : (MXExpr.sym (fresh "xdot") o.nx : MXExpr K).sub ode with
    | error e => rw [h1] at h; cases h
    | ok e1 =>
      rw [h1] at h
      simp only at h
      cases h2 : e1.vertcat2 alg with
      | error e => rw [h2] at h; cases h
      | ok e2 =>
        rw [h2] at h
        simp only at h
        have hp := ((C62_implicit_accepts fresh _).2 d h).1
        exact ⟨(Option.some.inj hp.x).symm, hp.z.1 _ rfl, hp.u.1 _ rfl, hp.p.1 _ rfl, hp.t.1 _ rfl, hp.quad.1 _ rfl,
          hp.tdp.1 _ rfl⟩

/-- A semi-explicit model meets the hypotheses on the model. -/
theorem semi_pre (fresh0 freshI : String → ℕ) (kw : DaeArgs K) (o : DaeObj K) (ho : DaeObj.newSemi fresh0 kw = .ok o)
    (halg : kw.alg ≠ none ∨ kw.z = none) :
    ∃ d ode alg xdot res, o.kind = .semi ode alg ∧ o.makeImplicit freshI = .ok d ∧ ImplicitWF d xdot res ∧
      xdot = MXExpr.sym (freshI "xdot") o.nx ∧
      ∀ env, ResidualZero res env ↔
        (∀ i < o.nx, xdot.val env i 0 = ode.val env i 0) ∧ (∀ i < o.nz, alg.val env i 0 = 0) := by
  obtain ⟨d, ode, alg, xdot, res, hk, hm, hk', hx, hz, hu, hp, ht, hq, htdp, hxd, hr, hc, hres⟩ :=
    C33_makeImplicit_partial fresh0 freshI kw o ho halg
  obtain ⟨sx, sz, su, -, st, -, -⟩ := semi_invariant fresh0 kw o ho
  have hnx : o.nx = o.x.rows := by simp [DaeObj.nx, MXExpr.numel, sx.1]
  have hnz : o.nz = o.z.rows := by simp [DaeObj.nz, MXExpr.numel, sz.1]
  refine ⟨d, ode, alg, xdot, res, hk, hm, ⟨hk', by rw [hx]; exact sx.1, by rw [hz]; exact sz.1, by rw [hu]; exact su.1,
    by rw [ht]; exact st.2, by rw [hxd]; rfl, by rw [hxd, hx]; exact hnx, hc, by rw [hr, hx, hz, hnx, hnz]⟩, hxd, ?_⟩
  intro env
  rw [hres env, hxd]
  rfl

section
variable [DecidableEq K] [CharZero K] (fresh freshI : String → ℕ) (casadiPoints : ℕ → String → Except PyErr (List K))
    (csFunction : List (MXExpr K) → List (MXExpr K) → Except PyErr (CsFn K))
    (dae : DaeObj K) (t : List K) (order : ℕ) (method : String) (tdp_fun : Option (K → Mat K))
    (d : DaeObj K) (xdot res : MXExpr K) (tau : List K) (F : CsFn K) (rep : Bool) (s : Scheme K)

/-- **C25** for a semi-explicit model: the equations hold exactly when at every collocation point `ode = K` and `alg = 0`,
the collocation polynomials end at the next `x`, and the parameter columns are equal. -/
theorem C25_semi_explicit (fresh0 : String → ℕ) (kw : DaeArgs K) (ho : DaeObj.newSemi fresh0 kw = .ok dae)
    (halg : kw.alg ≠ none ∨ kw.z = none) (ode alg : MXExpr K) (hkind : dae.kind = .semi ode alg)
    (hcs : IsCsFunction csFunction)
    (pre : SchemePre freshI casadiPoints csFunction dae t order method tdp_fun d xdot res tau F)
    (hs : Scheme.new fresh freshI casadiPoints csFunction dae t order method tdp_fun rep = .ok s)
    (hd : tau.Nodup) (ht : ∀ n < s.N, nd t n ≠ nd t (n + 1)) (env : Env K) :
    (∀ v ∈ s.eq.vals env, v = 0) ↔
      (∀ c < s.N * s.M, ∀ env', AtPoint s d xdot tdp_fun rep env env' c →
        (∀ i < dae.nx, ode.val env' i 0 = s.Kd.val env i c) ∧ (∀ i < dae.nz, alg.val env' i 0 = 0)) ∧
      (∀ n < s.N, ∀ i < dae.nx, ∀ P, IsCollocationPoly s env i n P →
        P.eval (nd t (n + 1)) = s.x.val env i (n + 1)) ∧
      (rep = true → ∀ c < s.N * s.M, ∀ i < dae.np, s.p.val env i c = s.p.val env i 0) := by
  obtain ⟨d', ode', alg', xdot', res', hk', hm, wf', -, hres⟩ := semi_pre fresh0 freshI kw dae ho halg
  rw [hkind] at hk'; cases hk'
  rw [pre.impl] at hm; cases hm
  have hkk := pre.wf.kind
  rw [wf'.kind] at hkk; cases hkk
  obtain ⟨px, pz, -, pp, -, -, -⟩ := makeImplicit_parts pre.impl
  have hnx : d.nx = dae.nx := by simp [DaeObj.nx, px]
  have hnp : d.np = dae.np := by simp [DaeObj.np, pp]
  rw [(C25_equations fresh freshI casadiPoints csFunction dae t order method tdp_fun d xdot res tau F rep s hcs pre hs hd ht
    env).1, hnx, hnp]
  refine and_congr ?_ Iff.rfl
  refine forall_congr' fun c => forall_congr' fun _ => forall_congr' fun env' => forall_congr' fun hat => ?_
  rw [hres env']
  refine and_congr (forall_congr' fun i => forall_congr' fun hi => ?_) Iff.rfl
  rw [hat.xdot i (by rw [← pre.wf.nx, hnx]; exact hi)]
  exact eq_comm

/-! ## C28 -/

/-- **C28** The unknowns `(x, K, Z)` of the integrator are as many as its equations (collocation equations plus initial
condition). -/
theorem C28_square_system
    (pre : SchemePre freshI casadiPoints csFunction dae t order method tdp_fun d xdot res tau F)
    (hs : Scheme.new fresh freshI casadiPoints csFunction dae t order method tdp_fun = .ok s) :
    ∃ var, s.combine ["x", "K", "Z"] = .ok var ∧
      (var.map fun e => e.2.rows * e.2.cols).sum = s.eq.rows + dae.nx ∧
      (var.map fun e => e.2.rows * e.2.cols).sum = dae.nx * (s.N + 1) + dae.nx * (s.N * s.M) + dae.nz * (s.N * s.M) := by
  have b := pre.built hs
  obtain ⟨px, pz, -, pp, -, -, -⟩ := makeImplicit_parts pre.impl
  have hnx : dae.nx = d.x.rows := by rw [← pre.wf.nx]; simp [DaeObj.nx, px]
  have hnz : dae.nz = d.z.rows := by rw [← pre.wf.nz]; simp [DaeObj.nz, pz]
  have hpc : s.p.cols = 1 := by rw [b.p]; rfl
  refine ⟨[("x", s.x), ("K", s.Kd), ("Z", s.Z)], rfl, ?_, ?_⟩
  · show _ = (List.map MXExpr.numel [s.eqCollocation, s.eqContinuity, s.eqParam]).sum + _
    simp only [List.map_cons, List.map_nil, List.sum_cons, List.sum_nil, MXExpr.numel, b.x, b.Kd, b.Z, MXExpr.sym,
      b.coll_shape.1, b.coll_shape.2, b.cont_shape.1, b.cont_shape.2, b.param, MXExpr.diffCols, hpc, hnx, Nat.sub_self]
    ring
  · simp only [List.map_cons, List.map_nil, List.sum_cons, List.sum_nil, b.x, b.Kd, b.Z, MXExpr.sym, hnx, hnz, b.N_eq, b.M_eq]
    ring

/-! ## C29 -/

/-- The times `n`, `j` of the collocation points for the grid `t` and nodes `tau`. -/
def pointTime (t tau : List K) (n j : ℕ) : K := nd t n + (nd t (n + 1) - nd t n) * nd tau j

/-- A solution of the model `(d, xdot, res)` whose states are polynomials `Xp n i` of degree at most `M` on every interval
`n` of the grid (with algebraic states `zs n`, inputs `us n` constant on the intervals and parameter `ps`): the pieces fit
together and the residuals vanish along it (only the collocation times are needed). -/
structure IsPolySolution (d : DaeObj K) (xdot res : MXExpr K) (tdp_fun : Option (K → Mat K)) (t tau : List K)
    (Xp : ℕ → ℕ → K[X]) (zs : ℕ → K → ℕ → K) (us : ℕ → ℕ → K) (ps : ℕ → K) : Prop where
  degree : ∀ n, n + 1 < t.length → ∀ i < d.nx, (Xp n i).degree ≤ tau.length
  continuous : ∀ n, n + 2 < t.length → ∀ i < d.nx, (Xp n i).eval (nd t (n + 1)) = (Xp (n + 1) i).eval (nd t (n + 1))
  solves : ∀ n, n + 1 < t.length → ∀ j < tau.length, ∀ env', ∀ T, T = pointTime t tau n j →
    (∀ i < d.nx, xdot.val env' i 0 = (derivative (Xp n i)).eval T) →
    (∀ i < d.nx, d.x.val env' i 0 = (Xp n i).eval T) →
    (∀ i < d.nz, d.z.val env' i 0 = zs n T i) →
    (∀ i < d.nu, d.u.val env' i 0 = us n i) →
    (∀ i < d.np, d.p.val env' i 0 = ps i) →
    d.t.val env' 0 0 = T →
    (∀ f, tdp_fun = some f → ∀ i < d.tdp.rows, ∀ j < d.tdp.cols, d.tdp.val env' i j = (f T).e i j) →
    ResidualZero res env'

/-- The variables of the scheme have the values of the solution. -/
structure Samples (s : Scheme K) (d : DaeObj K) (t tau : List K) (env : Env K)
    (Xp : ℕ → ℕ → K[X]) (zs : ℕ → K → ℕ → K) (us : ℕ → ℕ → K) (ps : ℕ → K) : Prop where
  x : ∀ n, n + 1 < t.length → ∀ i < d.nx, s.x.val env i n = (Xp n i).eval (nd t n)
  x_end : ∀ i < d.nx, s.x.val env i (t.length - 1) = (Xp (t.length - 2) i).eval (nd t (t.length - 1))
  Kd : ∀ n, n + 1 < t.length → ∀ j < tau.length, ∀ i < d.nx,
    s.Kd.val env i (n * tau.length + j) = (derivative (Xp n i)).eval (pointTime t tau n j)
  Z : ∀ n, n + 1 < t.length → ∀ j < tau.length, ∀ i < d.nz,
    s.Z.val env i (n * tau.length + j) = zs n (pointTime t tau n j) i
  u : ∀ n, n + 1 < t.length → ∀ i < d.nu, s.u.val env i n = us n i
  p : ∀ c < s.p.cols, ∀ i < d.np, s.p.val env i c = ps i

/-- **C29** A solution that is polynomial of degree at most `M` on every interval satisfies the equations; `X` is exact. If
the quadrature expression along it is a polynomial of degree less than `M` on every interval, `q` and `Q` are its exact
integrals. -/
theorem C29_polynomial_solutions_exact (hcs : IsCsFunction csFunction)
    (pre : SchemePre freshI casadiPoints csFunction dae t order method tdp_fun d xdot res tau F)
    (hs : Scheme.new fresh freshI casadiPoints csFunction dae t order method tdp_fun rep = .ok s)
    (hd : tau.Nodup) (ht : ∀ n < s.N, nd t n ≠ nd t (n + 1))
    (Xp : ℕ → ℕ → K[X]) (zs : ℕ → K → ℕ → K) (us : ℕ → ℕ → K) (ps : ℕ → K) (env : Env K)
    (hsol : IsPolySolution d xdot res tdp_fun t tau Xp zs us ps) (hsam : Samples s d t tau env Xp zs us ps) :
    (∀ v ∈ s.eq.vals env, v = 0) ∧
    (∀ n < s.N, ∀ j < s.M, ∀ i < d.nx, s.X.val env i (n * s.M + j) = (Xp n i).eval (pointTime t tau n j)) ∧
    ∀ qp Qp : ℕ → ℕ → K[X], (∀ n i, (qp n i).degree < s.M) → (∀ n i, derivative (Qp n i) = qp n i) →
      (∀ n < s.N, ∀ j < s.M, ∀ env', AtPoint s d xdot tdp_fun rep env env' (n * s.M + j) →
        ∀ i < d.nq, d.quad.val env' i 0 = (qp n i).eval (pointTime t tau n j)) →
      ∀ i < d.nq,
        (∀ n ≤ s.N, s.q.val env i n =
          ∑ m ∈ Finset.range n, ((Qp m i).eval (nd t (m + 1)) - (Qp m i).eval (nd t m))) ∧
        ∀ n < s.N, ∀ j < s.M, s.Q.val env i (n * s.M + j) =
          s.q.val env i n + ((Qp n i).eval (pointTime t tau n j) - (Qp n i).eval (nd t n)) := by
  have b := pre.built hs
  have hlen := pre.len
  obtain ⟨⟨hN, hM, hst, -⟩, ⟨-, htc⟩, -, -⟩ := C26_points_and_inputs fresh freshI casadiPoints csFunction dae t order method tdp_fun
    d xdot res tau F rep s pre hs
  have hnp : d.np = d.p.rows := by simp [DaeObj.np, MXExpr.numel, pre.p]
  have hpc : s.p.cols = if rep then (t.length - 1) * order else 1 := by rw [b.p]; rfl
  have hML : s.M = tau.length := by rw [hM, hlen]
  have htwo := pre.two
  -- the polynomials of the solution are the collocation polynomials
  have hcp : ∀ n < s.N, ∀ i < d.nx, IsCollocationPoly s env i n (Xp n i) := by
    intro n hn i hi
    rw [hN] at hn
    refine ⟨by rw [hML]; exact hsol.degree n (by omega) i hi, by rw [hst]; exact (hsam.x n (by omega) i hi).symm, ?_⟩
    intro j hj
    rw [htc n (by rw [hN]; exact hn) j hj]
    rw [hML] at hj ⊢
    exact (hsam.Kd n (by omega) j hj i hi).symm
  have h24 := fun i n hn => C24_state_integration fresh freshI casadiPoints csFunction dae t order method tdp_fun d xdot
    res tau F rep s pre hs hd env i n hn
  have hX : ∀ n < s.N, ∀ j < s.M, ∀ i < d.nx, s.X.val env i (n * s.M + j) = (Xp n i).eval (pointTime t tau n j) := by
    intro n hn j hj i hi
    rw [((h24 i n hn).2 _ (hcp n hn i hi)).1 j hj, htc n hn j hj]
    rfl
  refine ⟨?_, hX, ?_⟩
  · rw [(C25_equations fresh freshI casadiPoints csFunction dae t order method tdp_fun d xdot res tau F rep s hcs pre hs hd ht
      env).1]
    refine ⟨?_, ?_, ?_⟩
    · intro c hc env' hat
      have hMpos : 0 < s.M := by rw [hM]; exact pre.pos
      have hn : c / s.M < s.N := Nat.div_lt_of_lt_mul (by rw [Nat.mul_comm]; exact hc)
      have hj : c % s.M < s.M := Nat.mod_lt _ hMpos
      have hce : c / s.M * s.M + c % s.M = c := by rw [Nat.mul_comm]; exact Nat.div_add_mod c s.M
      have hn' : c / s.M + 1 < t.length := by rw [hN] at hn; omega
      have htime : nd s.tc c = pointTime t tau (c / s.M) (c % s.M) := by
        have := htc _ hn _ hj
        rw [hce] at this
        exact this
      refine hsol.solves (c / s.M) hn' (c % s.M) (by rw [← hML]; exact hj) env' _ rfl ?_ ?_ ?_ ?_ ?_ ?_ ?_
      · intro i hi
        rw [hat.xdot i (by rw [← pre.wf.nx]; exact hi)]
        have := hsam.Kd (c / s.M) hn' (c % s.M) (by rw [← hML]; exact hj) i hi
        rw [← hML, hce] at this
        exact this
      · intro i hi
        rw [hat.x i (by rw [← pre.wf.nx]; exact hi)]
        have := hX _ hn _ hj i hi
        rw [hce] at this
        exact this
      · intro i hi
        rw [hat.z i (by rw [← pre.wf.nz]; exact hi)]
        have := hsam.Z (c / s.M) hn' (c % s.M) (by rw [← hML]; exact hj) i hi
        rw [← hML, hce] at this
        exact this
      · intro i hi
        rw [hat.u i (by rw [← pre.wf.nu]; exact hi)]
        exact hsam.u _ hn' i hi
      · intro i hi
        rw [hat.p i (by rw [← hnp]; exact hi)]
        refine hsam.p _ ?_ i hi
        rw [hpc]
        rw [hN, hM] at hc
        cases rep
        · simp
        · simpa using hc
      · rw [hat.t, htime]
      · intro f hf i hi j hj
        rw [hat.tdp f hf i hi j hj, htime]
    · intro n hn i hi P hP
      have hP' : P = Xp n i := ((h24 i n hn).1 (ht n hn)).unique hP (hcp n hn i hi)
      rw [hP']
      rw [hN] at hn
      by_cases hlast : n + 2 < t.length
      · rw [hsol.continuous n hlast i hi, hsam.x (n + 1) hlast i hi]
      · have := hsam.x_end i hi
        rw [show t.length - 1 = n + 1 by omega, show t.length - 2 = n by omega] at this
        exact this.symm
    · intro hrep c hc i hi
      rw [hN, hM] at hc
      have h1 : c < s.p.cols := by rw [hpc, hrep]; exact hc
      rw [hsam.p c h1 i hi, hsam.p 0 (by omega) i hi]
  · intro qp Qp hq hQ hval i hi
    obtain ⟨-, hqv, hq0, hstep⟩ := C27_quadrature fresh freshI casadiPoints csFunction dae t order method tdp_fun d xdot
      res tau F rep s hcs pre hs hd env
    have hex := (C25_equations fresh freshI casadiPoints csFunction dae t order method tdp_fun d xdot res tau F rep s hcs pre hs
      hd ht env).2.1
    have key : ∀ n < s.N, ∀ j < s.M, (qp n i).eval (nd s.tc (n * s.M + j)) = s.quad.val env i (n * s.M + j) := by
      intro n hn j hj
      obtain ⟨env', hat⟩ := hex (n * s.M + j) (block_lt hn hj)
      rw [hqv _ (block_lt hn hj) env' hat i hi, hval n hn j hj env' hat i hi, htc n hn j hj]
      rfl
    constructor
    · intro n hn
      induction n with
      | zero => rw [hq0]; rfl
      | succ n ih =>
        rw [((hstep n (by omega) i).2 (qp n i) (Qp n i) (hq n i) (key n (by omega)) (hQ n i)).1, ih (by omega),
          Finset.sum_range_succ]
    · intro n hn j hj
      rw [((hstep n hn i).2 (qp n i) (Qp n i) (hq n i) (key n hn) (hQ n i)).2 j hj, htc n hn j hj]
      rfl

/-- **C29** for a solution that is one polynomial on the whole time span: the values of `q` are the integrals from the
beginning. -/
theorem C29_global_polynomial (hcs : IsCsFunction csFunction)
    (pre : SchemePre freshI casadiPoints csFunction dae t order method tdp_fun d xdot res tau F)
    (hs : Scheme.new fresh freshI casadiPoints csFunction dae t order method tdp_fun rep = .ok s)
    (hd : tau.Nodup) (ht : ∀ n < s.N, nd t n ≠ nd t (n + 1))
    (Xp : ℕ → K[X]) (zs : K → ℕ → K) (us ps : ℕ → K) (env : Env K)
    (hsol : IsPolySolution d xdot res tdp_fun t tau (fun _ => Xp) (fun _ => zs) (fun _ => us) ps)
    (hsam : Samples s d t tau env (fun _ => Xp) (fun _ => zs) (fun _ => us) ps) :
    (∀ v ∈ s.eq.vals env, v = 0) ∧
    (∀ c < s.N * s.M, ∀ i < d.nx, s.X.val env i c = (Xp i).eval (nd s.tc c)) ∧
    (∀ n ≤ s.N, ∀ i < d.nx, s.x.val env i n = (Xp i).eval (nd t n)) ∧
    ∀ qp Qp : ℕ → K[X], (∀ i, (qp i).degree < s.M) → (∀ i, derivative (Qp i) = qp i) →
      (∀ c < s.N * s.M, ∀ env', AtPoint s d xdot tdp_fun rep env env' c →
        ∀ i < d.nq, d.quad.val env' i 0 = (qp i).eval (nd s.tc c)) →
      ∀ i < d.nq, ∀ n ≤ s.N, s.q.val env i n = (Qp i).eval (nd t n) - (Qp i).eval (nd t 0) := by
  obtain ⟨h1, h2, h3⟩ := C29_polynomial_solutions_exact fresh freshI casadiPoints csFunction dae t order method tdp_fun d xdot
    res tau F rep s hcs pre hs hd ht _ _ _ _ env hsol hsam
  obtain ⟨⟨hN, hM, hst, -⟩, ⟨-, htc⟩, -, -⟩ := C26_points_and_inputs fresh freshI casadiPoints csFunction dae t order method tdp_fun
    d xdot res tau F rep s pre hs
  have htwo := pre.two
  have hMpos : 0 < s.M := by rw [hM]; exact pre.pos
  refine ⟨h1, ?_, ?_, ?_⟩
  · intro c hc i hi
    have hn : c / s.M < s.N := Nat.div_lt_of_lt_mul (by rw [Nat.mul_comm]; exact hc)
    have hj : c % s.M < s.M := Nat.mod_lt _ hMpos
    have hce : c / s.M * s.M + c % s.M = c := by rw [Nat.mul_comm]; exact Nat.div_add_mod c s.M
    have e1 := h2 _ hn _ hj i hi
    have e2 := htc _ hn _ hj
    rw [hce] at e1 e2
    rw [e1, e2]; rfl
  · intro n hn i hi
    rw [hN] at hn
    by_cases hl : n + 1 < t.length
    · exact hsam.x n hl i hi
    · have := hsam.x_end i hi
      rw [show t.length - 1 = n by omega] at this
      exact this
  · intro qp Qp hq hQ hval i hi n hn
    rw [(h3 (fun _ => qp) (fun _ => Qp) (fun _ => hq) (fun _ => hQ) (by
      intro n hn j hj env' hat i hi
      rw [hval _ (block_lt hn hj) env' hat i hi, htc n hn j hj]; rfl) i hi).1 n hn]
    clear hn
    induction n with
    | zero => simp
    | succ n ih => rw [Finset.sum_range_succ, ih]; ring

end

/-! ## An instance of the hypotheses -/

/-- The assignment that gives the symbols `ids` the values `args`. -/
def envFrom : List (ℕ × ℕ × ℕ) → List (Mat K) → Env K
  | a :: ids, A :: args => fun id => if id = a.1 then A.e else envFrom ids args id
  | _, _ => fun _ _ _ => 0

theorem envFrom_spec (ids : List (ℕ × ℕ × ℕ)) (hn : (ids.map (·.1)).Nodup) (args : List (Mat K))
    (h : List.Forall₂ (fun (a : Mat K) (e : MXExpr K) => a.rows = e.rows ∧ a.cols = e.cols) args
      (ids.map fun q => .sym q.1 q.2.1 q.2.2)) :
    List.Forall₂ (fun (a : Mat K) (e : MXExpr K) => a.Same (e.at' (envFrom ids args))) args
      (ids.map fun q => .sym q.1 q.2.1 q.2.2) := by
  induction ids generalizing args with
  | nil => cases h; exact .nil
  | cons a ids ih =>
    cases h with
    | @cons A _ args _ h1 h2 =>
      rw [List.map_cons, List.nodup_cons] at hn
      refine .cons ⟨h1.1, h1.2, ?_⟩ ?_
      · intro i _ j _
        show A.e i j = envFrom (a :: ids) (A :: args) a.1 i j
        simp [envFrom]
      · have := ih hn.2 args h2
        have hmem := hn.1
        clear ih h2 hn
        generalize hl : ids.map (fun q => (MXExpr.sym q.1 q.2.1 q.2.2 : MXExpr K)) = l at this
        have hall : ∀ e ∈ l, e.at' (envFrom (a :: ids) (A :: args)) = e.at' (envFrom ids args) := by
          intro e he
          rw [← hl] at he
          obtain ⟨q, hq, rfl⟩ := List.mem_map.mp he
          have hne : q.1 ≠ a.1 := fun h => hmem (List.mem_map.mpr ⟨q, hq, h⟩)
          show (⟨_, _, envFrom (a :: ids) (A :: args) q.1⟩ : Mat K) = ⟨_, _, envFrom ids args q.1⟩
          simp [envFrom, hne]
        clear hl hmem
        generalize envFrom ids args = e1 at this hall
        generalize envFrom (a :: ids) (A :: args) = e2 at hall ⊢
        clear h1
        induction this with
        | nil => exact .nil
        | cons hh _ ih =>
          exact .cons (by rw [hall _ (by simp)]; exact hh) (ih fun e he => hall e (by simp [he]))

/-- Outputs that depend only on the listed symbols have a function. -/
theorem isFunctionOf_syms (ids : List (ℕ × ℕ × ℕ)) (hn : (ids.map (·.1)).Nodup) (outs : List (MXExpr K))
    (hdep : ∀ o ∈ outs, ∀ env1 env2 : Env K, (∀ q ∈ ids, ∀ i < q.2.1, ∀ j < q.2.2, env1 q.1 i j = env2 q.1 i j) →
      (o.at' env1).Same (o.at' env2)) :
    IsFunctionOf (ids.map fun q => (.sym q.1 q.2.1 q.2.2 : MXExpr K)) outs
      (fun args => outs.map (·.at' (envFrom ids args))) where
  free args h := ⟨_, envFrom_spec ids hn args h⟩
  sound := by
    intro args env h
    have hsh : List.Forall₂ (fun (a : Mat K) (e : MXExpr K) => a.rows = e.rows ∧ a.cols = e.cols) args
        (ids.map fun q => (.sym q.1 q.2.1 q.2.2 : MXExpr K)) := h.imp fun a e hh => ⟨hh.1, hh.2.1⟩
    have h2 := envFrom_spec ids hn args hsh
    rw [List.forall₂_map_left_iff, List.forall₂_same]
    intro o ho
    refine hdep o ho _ _ ?_
    generalize envFrom ids args = env0 at h2
    clear hsh hn hdep ho
    induction ids generalizing args with
    | nil => intro q hq; cases hq
    | cons a ids ih =>
      cases h with
      | cons h1 ht =>
        cases h2 with
        | cons h3 ht2 =>
          intro q hq i hi j hj
          rcases List.mem_cons.mp hq with rfl | hq
          · exact (h3.2.2 i (by rw [h3.1]; exact hi) j (by rw [h3.2.1]; exact hj)).symm.trans
              (h1.2.2 i (by rw [h1.1]; exact hi) j (by rw [h1.2.1]; exact hj))
          · exact ih _ ht ht2 q hq i hi j hj

open Classical in
/-- A `cs.Function` that meets the contract and accepts everything that has a function. -/
noncomputable def idealCsFunction (ins outs : List (MXExpr K)) : Except PyErr (CsFn K) :=
  if h : ∃ F, IsFunctionOf ins outs F then .ok h.choose else .error .runtime

theorem idealCsFunction_spec : IsCsFunction (K := K) idealCsFunction := by
  intro ins outs F h
  unfold idealCsFunction at h
  split_ifs at h with hex
  cases h
  exact hex.choose_spec

/-- `x' = z + u + tdp[0, 1]`, `z = 2 p t`, quadrature `t`; the time-dependent parameter is a 1x2 matrix. -/
def schemeArgs : DaeArgs ℚ :=
  { x := some (.sym 0 1), z := some (.sym 1 1), u := some (.sym 2 1), p := some (.sym 3 1), t := some (.sym 4 1),
    tdp := some (.sym 5 1 2), quad := some ⟨1, 1, false, fun env _ _ => env 4 0 0⟩
    ode := some ⟨1, 1, false, fun env _ _ => env 1 0 0 + env 2 0 0 + env 5 0 1⟩
    alg := some ⟨1, 1, false, fun env _ _ => env 1 0 0 - 2 * env 3 0 0 * env 4 0 0⟩ }

/-- The time-dependent parameter of the example: `tdp(t) = [1, t]`. -/
def schemeTdp (s : ℚ) : Mat ℚ := ⟨1, 2, fun _ j => if j = 0 then 1 else s⟩

/-- The model object of `schemeArgs`. -/
def exO : DaeObj ℚ :=
  ⟨.sym 0 1, .sym 1 1, .sym 2 1, .sym 3 1, .sym 4 1, ⟨1, 1, false, fun env _ _ => env 4 0 0⟩, .sym 5 1 2,
    .semi ⟨1, 1, false, fun env _ _ => env 1 0 0 + env 2 0 0 + env 5 0 1⟩
      ⟨1, 1, false, fun env _ _ => env 1 0 0 - 2 * env 3 0 0 * env 4 0 0⟩⟩

/-- Its residual. -/
def exRes (freshI : String → ℕ) : MXExpr ℚ :=
  ⟨2, 1, false, fun env i j => if i < 1 then env (freshI "xdot") i j - (env 1 0 0 + env 2 0 0 + env 5 0 1)
    else env 1 0 0 - 2 * env 3 0 0 * env 4 0 0⟩

/-- Its implicit form. -/
def exD (freshI : String → ℕ) : DaeObj ℚ :=
  ⟨.sym 0 1, .sym 1 1, .sym 2 1, .sym 3 1, .sym 4 1, ⟨1, 1, false, fun env _ _ => env 4 0 0⟩, .sym 5 1 2,
    .implicit (.sym (freshI "xdot") 1) (exRes freshI)⟩

/-- The hypotheses of C24-C29 are satisfiable: a model with all kinds of variables, two intervals of different length, two
Radau points. -/
theorem scheme_instance (fresh0 freshI : String → ℕ) (hI : 6 ≤ freshI "xdot") :
    ∃ F : CsFn ℚ, DaeObj.newSemi fresh0 schemeArgs = .ok exO ∧
      SchemePre freshI (fun _ _ => .ok [1 / 3, 1]) idealCsFunction exO [0, 1, 3] 2 "radau" (some schemeTdp) (exD freshI)
        (.sym (freshI "xdot") 1) (exRes freshI) [1 / 3, 1] F := by
  have ho : DaeObj.newSemi fresh0 schemeArgs = .ok exO := rfl
  have hm : exO.makeImplicit freshI = .ok (exD freshI) := rfl
  have wf : ImplicitWF (exD freshI) (.sym (freshI "xdot") 1) (exRes freshI) :=
    ⟨rfl, rfl, rfl, rfl, ⟨rfl, rfl⟩, rfl, rfl, rfl, rfl⟩
  have hfun := isFunctionOf_syms (K := ℚ) [(freshI "xdot", 1, 1), (0, 1, 1), (1, 1, 1), (2, 1, 1), (3, 1, 1), (4, 1, 1), (5, 1, 2)]
    (by simp; omega) [exRes freshI,
        ⟨1, 1, false, fun env _ _ => env 4 0 0⟩] (by
      intro o ho env1 env2 h
      simp only [List.mem_cons, List.not_mem_nil, or_false, forall_eq_or_imp, forall_eq, Nat.lt_one_iff] at h ho
      have h5' := h.2.2.2.2.2.2 1 (by omega)
      obtain ⟨h6, h0, h1, h2, h3, h4, h5⟩ := h
      rcases ho with rfl | rfl
      · refine ⟨rfl, rfl, ?_⟩
        intro i hi j hj
        have hj : j = 0 := by change j < 1 at hj; omega
        subst hj
        simp only [exRes, MXExpr.at', h1, h2, h3, h4, h5']
        by_cases hi0 : i < 1
        · have : i = 0 := by omega
          subst this
          rw [h6]
        · rw [if_neg hi0, if_neg hi0]
      · exact ⟨rfl, rfl, fun i _ j _ => h4⟩)
  have hF : ∃ F, idealCsFunction [MXExpr.sym (freshI "xdot") 1, .sym 0 1, .sym 1 1, .sym 2 1, .sym 3 1, .sym 4 1, .sym 5 1 2]
      [exRes freshI, (⟨1, 1, false, fun env _ _ => env 4 0 0⟩ : MXExpr ℚ)] = .ok F := by
    unfold idealCsFunction
    rw [dif_pos ⟨_, hfun⟩]
    exact ⟨_, rfl⟩
  obtain ⟨F, hF⟩ := hF
  exact ⟨F, ho, hm, wf, rfl, rfl, by simp, by simp, rfl, rfl, fun s => ⟨rfl, rfl⟩, hF⟩

/-- Identities of the scheme's symbols in the example. -/
def exFresh (w : String) : ℕ :=
  if w = "x" then 0 else if w = "K" then 1 else if w = "Z" then 2 else if w = "u" then 3 else 4

/-- Values of the scheme's variables for the solution `z = 2 t`, `u = 0, 2`, `p = 1`, `x = 3/2 t^2`, then
`3/2 t^2 + 2 (t - 1)`. -/
def exEnv : Env ℚ := fun id _ j =>
  if id = 0 then nd [0, 3 / 2, 35 / 2] j else if id = 1 then nd [1, 3, 7, 11] j
  else if id = 2 then nd [2 / 3, 2, 10 / 3, 6] j else if id = 3 then nd [0, 2] j else 1

/-- The solution on the intervals. -/
noncomputable def exXp (n : ℕ) (_ : ℕ) : ℚ[X] :=
  if n = 0 then C (3 / 2) * X ^ 2 else C (3 / 2) * X ^ 2 + C 2 * X - C 2

/-- Non-vacuity of C24-C29: the scheme of the example exists; the solution satisfies the equations and has the exact
quadrature `∫ t dt = 9/2`; other values do not satisfy the equations. -/
example (freshI : String → ℕ) (hI : 6 ≤ freshI "xdot") : ∃ s,
    Scheme.new exFresh freshI (fun _ _ => .ok [1 / 3, 1]) idealCsFunction exO [0, 1, 3] 2 "radau" (some schemeTdp) true = .ok s ∧
    (∀ v ∈ s.eq.vals exEnv, v = 0) ∧ s.q.val exEnv 0 2 = 9 / 2 ∧
    ¬ (∀ v ∈ s.eq.vals (fun id i j => if id = 0 ∧ j = 1 then 5 else exEnv id i j), v = 0) := by
  obtain ⟨F, -, pre⟩ := scheme_instance (fun _ => 0) freshI hI
  obtain ⟨s, hs⟩ := C26_constructed exFresh freshI _ _ _ _ _ _ _ _ _ _ _ _ true pre
  have hb := pre.built hs
  have hN : s.N = 2 := hb.N_eq
  have hM : s.M = 2 := hb.M_eq
  have hd : ([1 / 3, 1] : List ℚ).Nodup := by norm_num
  have ht : ∀ n < s.N, nd ([0, 1, 3] : List ℚ) n ≠ nd ([0, 1, 3] : List ℚ) (n + 1) := by
    rw [hN]; intro n hn
    interval_cases n <;> simp
  have hx : s.x = .sym 0 1 3 := hb.x
  have hK : s.Kd = .sym 1 1 4 := hb.Kd
  have hZ : s.Z = .sym 2 1 4 := hb.Z
  have hu : s.u = .sym 3 1 2 := hb.u
  have hp : s.p = .sym 4 1 4 := hb.p
  have hsol : IsPolySolution (exD freshI) (.sym (freshI "xdot") 1) (exRes freshI) (some schemeTdp) [0, 1, 3] [1 / 3, 1]
      exXp (fun _ T _ => 2 * T) (fun n _ => nd [0, 2] n) (fun _ => 1) := by
    refine ⟨?_, ?_, ?_⟩
    · intro n _ i _
      unfold exXp
      split_ifs <;> (compute_degree; exact le_refl (2 : WithBot ℕ))
    · intro n hn i _
      have : n = 0 := by simp at hn; omega
      subst this
      norm_num [exXp]
    · intro n hn j hj env' T hT h1 h2 h3 h4 h5 h6 h7
      have e1 := h1 0 Nat.one_pos
      have e3 := h3 0 Nat.one_pos
      have e4 := h4 0 Nat.one_pos
      have e5 := h5 0 Nat.one_pos
      have e7 := h7 _ rfl 0 Nat.one_pos 1 (by show 1 < 2; omega)
      simp only [exD, MXExpr.sym] at e1 e3 e4 e5 h6 e7
      intro i hi k hk
      have hk : k = 0 := by change k < 1 at hk; omega
      subst hk
      simp only [exRes]
      have hn : n = 0 ∨ n = 1 := by simp at hn; omega
      by_cases hi0 : i < 1
      · have : i = 0 := by omega
        subst this
        rw [if_pos hi0, e1, e3, e4, e7]
        rcases hn with rfl | rfl
        · simp [exXp, schemeTdp]; ring
        · simp [exXp, schemeTdp]; ring
      · rw [if_neg hi0, e3, e5, h6]; ring
  have hsam : Samples s (exD freshI) [0, 1, 3] [1 / 3, 1] exEnv exXp (fun _ T _ => 2 * T) (fun n _ => nd [0, 2] n)
      (fun _ => 1) := by
    refine ⟨?_, ?_, ?_, ?_, ?_, ?_⟩
    · intro n hn i _
      have hn : n = 0 ∨ n = 1 := by simp at hn; omega
      rw [hx]
      rcases hn with rfl | rfl <;> norm_num [MXExpr.sym, exEnv, exXp]
    · intro i _
      rw [hx]; norm_num [MXExpr.sym, exEnv, exXp]
    · intro n hn j hj i _
      have hn : n = 0 ∨ n = 1 := by simp at hn; omega
      have hj : j = 0 ∨ j = 1 := by simp at hj; omega
      rw [hK]
      rcases hn with rfl | rfl <;> rcases hj with rfl | rfl <;> norm_num [MXExpr.sym, exEnv, exXp, pointTime]
    · intro n hn j hj i _
      have hn : n = 0 ∨ n = 1 := by simp at hn; omega
      have hj : j = 0 ∨ j = 1 := by simp at hj; omega
      rw [hZ]
      rcases hn with rfl | rfl <;> rcases hj with rfl | rfl <;> norm_num [MXExpr.sym, exEnv, pointTime]
    · intro n hn i _
      rw [hu]; rfl
    · intro c _ i _
      rw [hp]; rfl
  obtain ⟨h1, -, h3⟩ := C29_polynomial_solutions_exact exFresh freshI _ _ _ _ _ _ _ _ _ _ _ _ true s idealCsFunction_spec pre hs hd ht
    _ _ _ _ exEnv hsol hsam
  refine ⟨s, hs, h1, ?_, ?_⟩
  · rw [(h3 (fun _ _ => X) (fun _ _ => C (1 / 2) * X ^ 2) (by intro _ _; rw [hM, degree_X]; norm_num) (by
      intro _ _; rw [derivative_C_mul, derivative_X_pow, ← mul_assoc, ← C_mul]; norm_num) (by
      intro n hn j hj env' hat i hi
      have htc := (C26_points_and_inputs exFresh freshI _ _ _ _ _ _ _ _ _ _ _ _ true s pre hs).2.1.2 n hn j hj
      have := hat.t
      rw [htc] at this
      rw [eval_X]
      exact this) 0 Nat.one_pos).1 2 (by omega)]
    norm_num [Finset.sum_range_succ]
  · intro h
    have h2 := ((C25_equations exFresh freshI _ _ _ _ _ _ _ _ _ _ _ _ true s idealCsFunction_spec pre hs hd ht _).1.mp h).2.1 0
      (by omega) 0 Nat.one_pos (exXp 0 0) ⟨by rw [hM]; unfold exXp; rw [if_pos rfl]; compute_degree; exact le_refl (2 : WithBot ℕ), by
        rw [hx, hb.t_eq]; norm_num [MXExpr.sym, exEnv, exXp], by
        intro j hj
        have htc := (C26_points_and_inputs exFresh freshI _ _ _ _ _ _ _ _ _ _ _ _ true s pre hs).2.1.2 0 (by omega) j hj
        rw [htc, hK, hM]
        rw [hM] at hj
        interval_cases j <;> norm_num [MXExpr.sym, exEnv, exXp]⟩
    rw [hx] at h2
    norm_num [MXExpr.sym, exXp] at h2

/-- C24, C27, C28 for the scheme of the example: the continuity equations and the values at the points are those of the polynomial,
the quadrature starts at 0, and there are 11 variables for the 10 equations and the initial value. -/
example (freshI : String → ℕ) (hI : 6 ≤ freshI "xdot") (env : Env ℚ) : ∃ s,
    Scheme.new exFresh freshI (fun _ _ => .ok [1 / 3, 1]) idealCsFunction exO [0, 1, 3] 2 "radau" (some schemeTdp) = .ok s ∧
    (∃! P, IsCollocationPoly s env 0 1 P) ∧
    (∀ P, IsCollocationPoly s env 0 1 P → s.eqContinuity.val env 0 1 = P.eval 3 - s.x.val env 0 2) ∧
    s.q.val env 0 0 = 0 ∧ s.q.cols = 3 ∧
    ∃ var, s.combine ["x", "K", "Z"] = .ok var ∧ (var.map fun e => e.2.rows * e.2.cols).sum = 11 ∧ s.eq.rows = 10 := by
  obtain ⟨F, -, pre⟩ := scheme_instance (fun _ => 0) freshI hI
  obtain ⟨s, hs⟩ := C26_constructed exFresh freshI _ _ _ _ _ _ _ _ _ _ _ _ false pre
  have hb := pre.built hs
  have hN : s.N = 2 := hb.N_eq
  have hM : s.M = 2 := hb.M_eq
  have hd : ([1 / 3, 1] : List ℚ).Nodup := by norm_num
  obtain ⟨h1, h2⟩ := C24_state_integration exFresh freshI _ _ _ _ _ _ _ _ _ _ _ _ false s pre hs hd env 0 1 (by omega)
  obtain ⟨⟨-, h3, -⟩, -, h4, -⟩ := C27_quadrature exFresh freshI _ _ _ _ _ _ _ _ _ _ _ _ false s idealCsFunction_spec pre hs hd env
  obtain ⟨var, h5, h6, h7⟩ := C28_square_system exFresh freshI _ _ _ _ _ _ _ _ _ _ _ _ s pre hs
  have hnx : exO.nx = 1 := rfl
  have hnz : exO.nz = 1 := rfl
  rw [hN, hM, hnx, hnz] at h7
  rw [hnx] at h6
  refine ⟨s, hs, h1 (by simp [nd]), fun P hP => ?_, h4 0, by rw [h3, hN], var, h5, by omega, by omega⟩
  have := (h2 P hP).2
  simpa [nd] using this

end CE
