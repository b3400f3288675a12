import Verif.Num.PropsInexact
import Verif.Num.PropsDense

/-!
# Property C110: accuracy of the trajectory of `integrate` when the root finder stops at a tolerance

C97 bounds the states at the grid points when the root finder of the integrator solves the equations up to a tolerance; C99 bounds the
trajectory at all times when it solves them exactly.  Here the trajectory, its derivative and the algebraic states are bounded for a root
finder with a tolerance.
-/

open Polynomial Set

namespace CE

section
variable (fresh freshI : String → ℕ) (casadiPoints : ℕ → String → Except PyErr (List ℝ))
    (csFunction : List (MXExpr ℝ) → List (MXExpr ℝ) → Except PyErr (CsFn ℝ))
    (dae : DaeObj ℝ) (t : List ℝ) (order : ℕ) (method : String) (tdp_fun : Option (ℝ → Mat ℝ))
    (d : DaeObj ℝ) (xdot res : MXExpr ℝ) (tau : List ℝ) (F : CsFn ℝ)

/-- The assignment that belongs to the outputs of a call of the integrator, for a root finder with a tolerance. -/
theorem integrator_env_tol
    (pre : SchemePre freshI casadiPoints csFunction dae t order method tdp_fun d xdot res tau F)
    (hfr : DistinctSyms fresh) (hpq : dae.np = 0 ∨ dae.nq = 0)
    (rootfinder : (List ℝ → List ℝ) → List ℝ → Except PyErr (List ℝ)) (tol : ℝ)
    (hrf : ∀ f w0 sol, rootfinder f w0 = .ok sol → ∀ v ∈ f sol, |v| ≤ tol) :
    ∃ g, Integrator.new fresh freshI casadiPoints csFunction dae t order method tdp_fun = .ok g ∧
      Scheme.new fresh freshI casadiPoints csFunction dae t order method tdp_fun = .ok g.scheme ∧
      ∀ x0 z0 u p out, g.call rootfinder x0 z0 u p = .ok out → ∃ env : Env ℝ,
        (∀ v ∈ g.scheme.eq.vals env, |v| ≤ tol) ∧ g.scheme.u.val env = u.e ∧ g.scheme.p.val env = p.e ∧
        (∀ i < d.nx, |g.scheme.x.val env i 0 - x0.e i 0| ≤ tol) ∧ out.x = g.scheme.x.at' env ∧ out.Kd = g.scheme.Kd.at' env ∧
        out.Z = g.scheme.Z.at' env ∧ out.tc = g.scheme.tc ∧
        g.integrate fresh rootfinder x0 z0 u p = (g.scheme.piecewisePolyX fresh out.x out.Kd).map fun tr => (out, tr) := by
  obtain ⟨s, x1, hs, -, hx1v, hnew⟩ := integrator_new fresh freshI casadiPoints csFunction dae t order method tdp_fun d xdot res tau F
    pre
  rw [if_neg (by omega)] at hnew
  have b := pre.built hs
  obtain ⟨px, -⟩ := makeImplicit_parts pre.impl
  have hnx : dae.nx = d.nx := by simp [DaeObj.nx, px]
  refine ⟨_, hnew, hs, fun x0 z0 u p out hcall => ?_⟩
  have hcall0 := hcall
  unfold Integrator.call at hcall
  simp only [bind, Except.bind] at hcall
  split at hcall
  · cases hcall
  rename_i sol hsol
  have hroot := hrf _ _ _ hsol
  have hout := Except.ok.inj hcall
  set env := Integrator.envOf fresh s sol u p with henv
  refine ⟨env, fun v hv => hroot v (List.mem_append_left _ hv), ?_, ?_, fun i hi => ?_, by rw [← hout], by rw [← hout], by rw [← hout],
    by rw [← hout], ?_⟩
  · show s.u.val env = u.e
    rw [b.u]
    show Integrator.envOf fresh s sol u p (fresh "u") = _
    rw [Integrator.envOf, if_neg hfr.xu.symm, if_neg hfr.Ku.symm, if_neg hfr.Zu.symm, if_pos rfl]
  · show s.p.val env = p.e
    rw [b.p]
    show Integrator.envOf fresh s sol u p (fresh "P") = _
    rw [Integrator.envOf, if_neg hfr.xP.symm, if_neg hfr.KP.symm, if_neg hfr.ZP.symm, if_neg hfr.uP.symm, if_pos rfl]
  · have := hroot (x1.val env i 0 - x0.e i 0)
      (List.mem_append_right _ (List.mem_map.mpr ⟨i, List.mem_range.mpr (by omega), rfl⟩))
    rwa [hx1v] at this
  · unfold Integrator.integrate
    rw [hcall0]
    simp only [bind, Except.bind]
    cases s.piecewisePolyX fresh out.x out.Kd <;> rfl

end

/-- **C110** For a regular, solvable model, steps as in C88, nodes other than 0 and a root finder that solves its equations up to `tol`: with
`e n` the bound of C97 for the states at the start of interval `n`, the trajectory that `integrate` returns differs from the exact solution at
the times of the interval at most by a constant, which depends on the nodes only, times `(e n + H*(1+α)*D + H*α*G*tol)/(1-θ)`, plus `B*H^(M+1)`;
the derivative of the trajectory and the algebraic states at the collocation points are as accurate. -/
theorem C110_tolerance (tau : List ℝ) (hd : tau.Nodup) (hz : 0 ∉ tau) (h01 : ∀ k < tau.length, nd tau k ∈ Icc (0 : ℝ) 1) :
    ∃ C ≥ 0, ∀ (fresh freshI : String → ℕ) (casadiPoints : ℕ → String → Except PyErr (List ℝ))
      (csFunction : List (MXExpr ℝ) → List (MXExpr ℝ) → Except PyErr (CsFn ℝ))
      (dae : DaeObj ℝ) (t : List ℝ) (order : ℕ) (method : String) (tdp_fun : Option (ℝ → Mat ℝ))
      (d : DaeObj ℝ) (xdot res : MXExpr ℝ) (F : CsFn ℝ), IsCsFunction csFunction →
      SchemePre freshI casadiPoints csFunction dae t order method tdp_fun d xdot res tau F →
      DistinctSyms fresh → dae.np = 0 ∨ dae.nq = 0 →
      ∀ (L Lz G Gz θ : ℝ), RegularDae d xdot res L Lz G Gz → Solvable d xdot res →
      ∀ (T : ButcherTableau ℝ), butcherTableuForCollocationPoints tau = .ok T → ∀ (α β H : ℝ),
      (∀ j < order, ∑ k ∈ Finset.range order, |T.A.e [j, k]| ≤ α) → ∑ k ∈ Finset.range order, |T.b.e [k]| ≤ β →
      (∀ n < t.length - 1, nd t n < nd t (n + 1) ∧ nd t (n + 1) - nd t n ≤ H) → θ < 1 → L * (H * α) ≤ θ →
      ∀ (rootfinder : (List ℝ → List ℝ) → List ℝ → Except PyErr (List ℝ)) (tol : ℝ), 0 ≤ tol →
      (∀ f w0 sol, rootfinder f w0 = .ok sol → ∀ v ∈ f sol, |v| ≤ tol) →
      ∃ g, Integrator.new fresh freshI casadiPoints csFunction dae t order method tdp_fun = .ok g ∧
      ∀ x0 z0 u p out, g.call rootfinder x0 z0 u p = .ok out →
      ∀ (y : ℕ → ℝ → ℝ) (f ζ : ℕ → ℕ → ℝ → ℝ), ExactDae d xdot res tdp_fun t u.e (fun i => p.e i 0) y f ζ →
      ∀ B, 0 ≤ B → (∀ n < t.length - 1, ∀ i < d.nx, ContDiffOn ℝ order (f n i) (Icc (nd t n) (nd t (n + 1)))) →
      (∀ n < t.length - 1, ∀ i < d.nx, ∀ τ ∈ Icc (nd t n) (nd t (n + 1)),
        |iteratedDerivWithin order (f n i) (Icc (nd t n) (nd t (n + 1))) τ| ≤ B) →
      ∀ ε, 0 ≤ ε → (∀ i < d.nx, |x0.e i 0 - y i (nd t 0)| ≤ ε) →
      let Λ := β * L / (1 - θ)
      let D := B * H ^ order / ((order - 1).factorial : ℝ)
      let e := fun n : ℕ => Real.exp (Λ * (nd t n - nd t 0)) * (ε + (nd t n - nd t 0) * ((1 + β + Λ * H * (1 + α)) * D) +
        (1 + (nd t n - nd t 0) * (β * G / (1 - θ)) + n) * tol)
      let W := fun n : ℕ => (e n + H * (1 + α) * D + H * α * (G * tol)) / (1 - θ)
      (∀ n < t.length - 1, ∀ j < order, ∀ k < d.nz,
        |out.Z.e k (n * order + j) - ζ n k (nd out.tc (n * order + j))| ≤ Lz * W n + Gz * tol) ∧
      ∃ tr dtr, g.integrate fresh rootfinder x0 z0 u p = .ok (out, tr) ∧ tr.derivative = .ok dtr ∧ ∀ ts : List ℝ, ts ≠ [] →
        ∃ V DV, tr.call ts = .ok V ∧ dtr.call ts = .ok DV ∧ V.rows = d.nx ∧ V.cols = ts.length ∧ DV.rows = d.nx ∧ DV.cols = ts.length ∧
        ∀ k < ts.length, ∀ n < t.length - 1, nd ts k ∈ Icc (nd t n) (nd t (n + 1)) → (nd ts k < nd t (n + 1) ∨ n + 1 = t.length - 1) →
          ∀ i < d.nx,
          |V.e i k - y i (nd ts k)| ≤ C * W n + B * H ^ (order + 1) ∧
          |DV.e i k - f n i (nd ts k)| ≤ C * ((L * (e n + H * (1 + α) * D) + G * tol) / (1 - θ)) + B * H ^ order := by
  obtain ⟨C, hC, htraj⟩ := C99_trajectory tau hd hz h01
  refine ⟨C, hC, fun fresh freshI casadiPoints csFunction dae t order method tdp_fun d xdot res F hcs pre hfr hpq L Lz G Gz θ reg hsolv T
    hT α β H hα hβ ht hθ hstep rootfinder tol htol hrf => ?_⟩
  obtain ⟨g, hg, hs, hcall⟩ := integrator_env_tol fresh freshI casadiPoints csFunction dae t order method tdp_fun d xdot res tau F pre hfr hpq
    rootfinder tol hrf
  refine ⟨g, hg, fun x0 z0 u p out hout y f ζ hex B hB0 hsm hB ε hε h0 => ?_⟩
  obtain ⟨env, heq, hu, hp, hx0, hox, hoK, hoZ, hotc, hint⟩ := hcall x0 z0 u p out hout
  intro Λ D e W
  generalize g.scheme = s at *
  have b := pre.built hs
  have hN := b.N_eq
  have hM := b.M_eq
  have htwo := pre.two
  have ix := reg.indexOne pre.wf.res_cols
  have hasc : Ascending t := fun n hn => (ht n (by omega)).1
  have hf : [fresh "x", fresh "K", fresh "Z", fresh "u", fresh "P"].Nodup := by
    simp [hfr.xK, hfr.xZ, hfr.xu, hfr.xP, hfr.KZ, hfr.Ku, hfr.KP, hfr.Zu, hfr.ZP, hfr.uP]
  have hL := ix.nonneg
  have hH : 0 ≤ H := by
    have := ht 0 (by omega)
    linarith [this.1, this.2]
  have hα0 : 0 ≤ α := (Finset.sum_nonneg fun _ _ => abs_nonneg _).trans (hα 0 pre.pos)
  have h1θ : 0 < 1 - θ := by linarith
  have hθ0 : 0 ≤ θ := (mul_nonneg hL (mul_nonneg hH hα0)).trans hstep
  have ht' : ∀ n < t.length - 1, nd t n ≤ nd t (n + 1) ∧ nd t (n + 1) - nd t n ≤ H := fun n hn => ⟨(ht n hn).1.le, (ht n hn).2⟩
  -- the exact solution of the equations for the same inputs, from `x0`
  obtain ⟨env', heq', hx', hu', hp'⟩ := C88_exists fresh freshI casadiPoints csFunction dae t order method tdp_fun d xdot res tau F false s
    hcs pre hs hf L Lz θ ix hsolv hθ T hT (by
      intro n hn j hj
      rw [hN] at hn
      rw [hM] at hj ⊢
      refine le_trans (mul_le_mul_of_nonneg_left ?_ ix.nonneg) hstep
      rw [abs_of_nonneg (sub_nonneg.mpr (ht' n hn).1)]
      exact mul_le_mul (ht' n hn).2 (hα j hj) (Finset.sum_nonneg fun _ _ => abs_nonneg _) hH)
    env (fun h => by cases h) (fun i => x0.e i 0)
  have hu'' : s.u.val env' = u.e := by
    rw [← hu]
    funext i n
    exact hu' i n
  have hp'' : s.p.val env' = p.e := by
    rw [← hp]
    funext i n
    exact hp' i n
  obtain ⟨a1, a2⟩ := C97_inexact fresh freshI casadiPoints csFunction dae t order method tdp_fun d xdot res tau F false s hcs pre hs L Lz G
    Gz θ reg T hT α β H (by rw [hM]; exact hα) (by rw [hM]; exact hβ) (by rw [hN]; exact ht') hθ hstep env env' tol 0 tol
    heq (fun v hv => by rw [heq' v hv, abs_zero]) ⟨htol, le_rfl⟩
    (fun n _ i _ => (hu' i n).symm) (fun n _ i _ => (hp' i n).symm) htol (fun i hi => by rw [hx' i]; exact hx0 i hi)
  obtain ⟨c1, c2⟩ := C88_convergence fresh freshI casadiPoints csFunction dae t order method tdp_fun d xdot res tau F false s hcs pre hs hf
    L Lz θ ix hd h01 T hT α β H (by rw [hM]; exact hα) (by rw [hM]; exact hβ) (by rw [hN]; exact ht') hθ hstep env'
    heq' y f ζ (by rw [hu'', hp'']; exact hex) B ε (by rw [hN, hM]; exact hsm)
    (by rw [hN, hM]; exact hB) hB0 hε (fun i hi => by rw [hx' i]; exact h0 i hi)
  rw [hN, hM] at a2 c2
  rw [hN] at a1 c1
  rw [hM] at c1
  have he : ∀ n, e n = Real.exp (Λ * (nd t n - nd t 0)) * (ε + (nd t n - nd t 0) * ((1 + β + Λ * H * (1 + α)) * D)) +
      Real.exp (Λ * (nd t n - nd t 0)) * (tol + (nd t n - nd t 0) * (β * G / (1 - θ) * (tol + 0)) + n * (tol + 0)) := by
    intro n
    simp only [e]
    ring
  have tri : ∀ a b c r₁ r₂ r : ℝ, |a - b| ≤ r₁ → |b - c| ≤ r₂ → r₁ + r₂ = r → |a - c| ≤ r := by
    intro a b c r₁ r₂ r h1 h2 h3
    rw [show a - c = (a - b) + (b - c) by ring, ← h3]
    exact (abs_add_le _ _).trans (add_le_add h1 h2)
  have k1 : ∀ n ≤ t.length - 1, ∀ i < d.nx, |s.x.val env i n - y i (nd t n)| ≤ e n := fun n hn i hi =>
    tri _ _ _ _ _ _ (a1 n hn i hi) (c1 n hn i hi) (by rw [he, add_comm])
  have k2 : ∀ n < t.length - 1, ∀ j < order, ∀ i < d.nx, |s.X.val env i (n * order + j) - y i (nd s.tc (n * order + j))| ≤ W n := by
    intro n hn j hj i hi
    refine tri _ _ _ _ _ _ ((a2 n hn j hj).1 i hi).2 ((c2 n hn j hj).1 i hi) ?_
    simp only [W]
    rw [he]
    ring
  have k3 : ∀ n < t.length - 1, ∀ j < order, ∀ i < d.nx,
      |s.Kd.val env i (n * order + j) - f n i (nd s.tc (n * order + j))| ≤ (L * (e n + H * (1 + α) * D) + G * tol) / (1 - θ) := by
    intro n hn j hj i hi
    refine tri _ _ _ _ _ _ ((a2 n hn j hj).1 i hi).1 ((c2 n hn j hj).2.1 i hi) ?_
    rw [he]
    ring
  have k4 : ∀ n < t.length - 1, ∀ j < order, ∀ k < d.nz,
      |s.Z.val env k (n * order + j) - ζ n k (nd s.tc (n * order + j))| ≤ Lz * W n + Gz * tol := by
    intro n hn j hj k hk
    refine tri _ _ _ _ _ _ ((a2 n hn j hj).2 k hk) ((c2 n hn j hj).2.2 k hk) ?_
    simp only [W]
    rw [he]
    ring
  have heW : ∀ n < t.length - 1, ∀ i < d.nx, |s.x.val env i n - y i (nd t n)| ≤ W n := by
    intro n hn i hi
    refine (k1 n hn.le i hi).trans ?_
    have he0 : 0 ≤ e n := (abs_nonneg _).trans (k1 n hn.le i hi)
    have hD0 : 0 ≤ H * (1 + α) * D := by positivity
    have hG0 : 0 ≤ H * α * (G * tol) := mul_nonneg (mul_nonneg hH hα0) (mul_nonneg reg.nonneg.2 htol)
    simp only [W]
    rw [le_div_iff₀ h1θ]
    nlinarith [mul_nonneg he0 hθ0]
  refine ⟨fun n hn j hj k hk => by rw [hoZ, hotc]; exact k4 n hn j hj k hk, ?_⟩
  obtain ⟨pp, dpp, hpp, hdpp, hts⟩ := htraj fresh freshI casadiPoints csFunction dae t order method tdp_fun d xdot res F false s pre hs hasc
    hfr.xK out.x out.Kd env (by rw [hox, b.x, hN]; exact ⟨pre.wf.nx.symm, rfl⟩) (by rw [hoK, b.Kd, hN, hM]; exact ⟨pre.wf.nx.symm, rfl⟩)
    (fun i n => by rw [hox]; rfl) (fun i c => by rw [hoK]; rfl) y f B hB0 (by rw [hN]; exact hex.deriv) (by rw [hN, hM]; exact hsm)
    (by rw [hN, hM]; exact hB)
  refine ⟨pp, dpp, by rw [hint, hpp]; rfl, hdpp, fun ts hne => ?_⟩
  obtain ⟨V, DV, hV, hDV, r1, r2, r3, r4, hb⟩ := hts ts hne
  refine ⟨V, DV, hV, hDV, r1, r2, r3, r4, fun k hk n hn hin hside i hi => ?_⟩
  rw [hN, hM] at hb
  have hstepn : ∀ q : ℕ, B * (nd t (n + 1) - nd t n) ^ q ≤ B * H ^ q := fun q =>
    mul_le_mul_of_nonneg_left (pow_le_pow_left₀ (by linarith [(ht n hn).1]) (ht n hn).2 _) hB0
  constructor
  · refine ((hb k hk n hn hin hside i hi).1 (W n) ?_ fun j hj => k2 n hn j hj i hi).1.trans (add_le_add le_rfl (hstepn _))
    rw [show out.x.e i n = s.x.val env i n by rw [hox]; rfl]
    exact heW n hn i hi
  · refine ((hb k hk n hn hin hside i hi).2 _ fun j hj => ?_).trans (add_le_add le_rfl (hstepn _))
    rw [show out.Kd.e i (n * order + j) = s.Kd.val env i (n * order + j) by rw [hoK]; rfl]
    exact k3 n hn j hj i hi

/-! ## Non-vacuity -/

/-- The index-one model `x' = -z`, `0 = z - x` from `1` with the midpoint rule, steps of at most `H <= 1` and any root finder with the tolerance
`tol`: at all times of interval `n` the trajectory differs from `exp(-t)` at most by a constant times the given expression, which vanishes with
`H` and `n*tol`. -/
example : ∃ C ≥ 0, ∀ (freshI : String → ℕ), 7 ≤ freshI "xdot" → ∀ (t : List ℝ) (H : ℝ), 2 ≤ t.length → H ≤ 1 → nd t 0 = 0 →
    (∀ n < t.length - 1, nd t n < nd t (n + 1) ∧ nd t (n + 1) - nd t n ≤ H) →
    ∀ (rootfinder : (List ℝ → List ℝ) → List ℝ → Except PyErr (List ℝ)) (tol : ℝ), 0 ≤ tol →
    (∀ f w0 sol, rootfinder f w0 = .ok sol → ∀ v ∈ f sol, |v| ≤ tol) → ∃ g,
    Integrator.new exFresh freshI (fun _ _ => .ok [1 / 2]) idealCsFunction loopO t 1 "legendre" none = .ok g ∧
    ∀ z0 u p out, g.call rootfinder ⟨1, 1, fun _ _ => 1⟩ z0 u p = .ok out → ∃ tr,
      g.integrate exFresh rootfinder ⟨1, 1, fun _ _ => 1⟩ z0 u p = .ok (out, tr) ∧
      ∀ n < t.length - 1, ∀ τ, nd t n ≤ τ → τ < nd t (n + 1) → ∃ V, tr.call [τ] = .ok V ∧
        |V.e 0 0 - Real.exp (-τ)| ≤ C * (Real.exp (2 * nd t n) * (5 * nd t n * H + (1 + 4 * nd t n + n) * tol) + 2 * H + tol) := by
  obtain ⟨C, hC, h110⟩ := C110_tolerance ([1 / 2] : List ℝ) (by simp) (by simp)
    (by intro k hk; obtain rfl : k = 0 := (by simpa using hk); norm_num [nd])
  refine ⟨2 * C + 1, by positivity, fun freshI hI t H two hH h0 ht rootfinder tol htol hrf => ?_⟩
  obtain ⟨F, pre⟩ := loop_pre freshI hI t [1 / 2] two (by simp)
  obtain ⟨T, hT, hA, hB, -⟩ := C09_butcher_consistent ([1 / 2] : List ℝ) (by simp) (by simp)
  obtain ⟨T', hT', -, -, -, hc, -⟩ := C08_butcher_exact ([1 / 2] : List ℝ) (by simp)
  rw [hT] at hT'
  cases hT'
  have hA0 : T.A.e [0, 0] = 1 / 2 := by
    have := hA 0 (by simp)
    rw [hc 0 (by simp)] at this
    simpa using this
  have hB0 : T.b.e [0] = 1 := by simpa using hB
  have hH0 : 0 ≤ H := by
    have := ht 0 (by omega)
    linarith [this.1, this.2]
  have hpos : ∀ n ≤ t.length - 1, 0 ≤ nd t n := by
    intro n
    induction n with
    | zero => intro _; exact h0.ge
    | succ n ih => intro hn; exact (ih (by omega)).trans (ht n (by omega)).1.le
  obtain ⟨g, hg, h⟩ := h110 exFresh freshI _ _ _ _ _ _ _ _ _ _ _ idealCsFunction_spec pre (by constructor <;> decide) (.inl rfl) 1 1 2 1
    (1 / 2) (loop_regular freshI) (loop_index freshI).2 T hT (1 / 2) 1 H (by
      intro j hj
      change j < 1 at hj
      obtain rfl : j = 0 := by omega
      show ∑ k ∈ Finset.range 1, _ ≤ _
      rw [Finset.sum_range_one, hA0]
      norm_num) (by
      show ∑ k ∈ Finset.range 1, _ ≤ _
      rw [Finset.sum_range_one, hB0, abs_one]) ht (by norm_num) (by linarith) rootfinder tol htol hrf
  refine ⟨g, hg, fun z0 u p out hout => ?_⟩
  obtain ⟨ex, sm, bd⟩ := decay_exact freshI t 1 u.e (fun i => p.e i 0) (fun n hn => ⟨hpos n (by omega), (ht n (by omega)).1⟩)
  obtain ⟨-, tr, dtr, htr, -, key⟩ := h _ z0 u p out hout (fun _ τ => Real.exp (-τ)) (fun _ _ τ => -Real.exp (-τ))
    (fun _ _ τ => Real.exp (-τ))
    ⟨fun n hn i hi => ex.deriv n hn i hi, fun n _ τ _ e h => (loop_zero freshI e).mpr (by
      have h1 := h.xdot 0 Nat.one_pos
      have h2 := h.x 0 Nat.one_pos
      have h3 := h.z 0 Nat.one_pos
      simp only [loopD, MXExpr.sym] at h1 h2 h3
      rw [h1, h2, h3]
      exact ⟨rfl, rfl⟩)⟩ 1 zero_le_one (fun n hn i _ => sm n hn) (fun n hn i _ => bd n hn) 0 le_rfl (by
      intro i hi
      rw [h0]
      simp)
  refine ⟨tr, htr, fun n hn τ hτ0 hτ1 => ?_⟩
  obtain ⟨V, DV, hV, -, -, -, -, -, hv⟩ := key [τ] (by simp)
  refine ⟨V, hV, ?_⟩
  have k := (hv 0 (by simp) n hn ⟨hτ0, hτ1.le⟩ (.inl hτ1) 0 Nat.one_pos).1
  have e0 : nd [τ] 0 = τ := rfl
  have e1 : (((1 : ℕ) - 1).factorial : ℝ) = 1 := by simp
  simp only [e0, h0, sub_zero, zero_add, List.length_singleton, e1, pow_one, one_mul, div_one, mul_one] at k
  have e2 : (1 : ℝ) / (1 - 1 / 2) = 2 := by norm_num
  have e3 : (2 : ℝ) / (1 - 1 / 2) = 4 := by norm_num
  rw [e2, e3] at k
  have hn0 := hpos n hn.le
  have hE : 0 ≤ Real.exp (2 * nd t n) := (Real.exp_pos _).le
  set E := Real.exp (2 * nd t n) with hEdef
  set a := nd t n with ha
  have hEτ : 0 ≤ E * a * H := by positivity
  have q1 : E * (a * ((1 + 1 + 2 * H * (1 + 1 / 2)) * H)) ≤ E * a * H * 5 := by
    have : 2 + 3 * H ≤ 5 := by linarith
    nlinarith [mul_le_mul_of_nonneg_left this hEτ]
  have q2 : H * H ≤ H := by nlinarith
  have q3 : H * tol ≤ tol := by nlinarith
  have q4 : (E * (a * ((1 + 1 + 2 * H * (1 + 1 / 2)) * H) + (1 + a * 4 + n) * tol) + H * (1 + 1 / 2) * H + H * (1 / 2) * (2 * tol)) / (1 - 1 / 2) ≤
      2 * (E * (5 * a * H + (1 + 4 * a + n) * tol) + 2 * H + tol) := by
    rw [div_le_iff₀ (by norm_num)]
    nlinarith
  have q5 := mul_le_mul_of_nonneg_left q4 hC
  have q6 : 0 ≤ E * (5 * a * H + (1 + 4 * a + n) * tol) := by positivity
  have q7 : H ^ (1 + 1) ≤ H := by rw [pow_succ, pow_one]; exact q2
  linarith

end CE
