import Verif.Num.LemDense
import Verif.Num.PropsContract2

/-!
# Property C99: accuracy of the trajectory `x_traj` at all times

`integrate` returns the states as a piecewise polynomial function of the time.  C83, C88 and C96 bound the errors of the states at the grid
points and at the collocation points; here the errors of the trajectory and of its derivative are bounded at all times between the first and
the last grid point.
-/

open Polynomial Set

namespace CE

/-- **C99** (trajectory) The nodes determine a constant such that for every scheme, every assignment and every function `y` with piecewise
smooth derivative `f`: the distance of the trajectory from `y` on an interval is at most the constant times the largest distance at the start of
the interval and at its collocation points, plus `B*h^(M+1)`; the distance of its derivative from `f` is at most that divided by the length of
the interval, and at most the constant times the largest distance of `K` from `f` plus `B*h^M`. -/
theorem C99_trajectory (tau : List ℝ) (hd : tau.Nodup) (hz : 0 ∉ tau) (h01 : ∀ k < tau.length, nd tau k ∈ Icc (0 : ℝ) 1) :
    ∃ Λ ≥ 0, ∀ (fresh freshI : String → ℕ) (casadiPoints : ℕ → String → Except PyErr (List ℝ))
      (csFunction : List (MXExpr ℝ) → List (MXExpr ℝ) → Except PyErr (CsFn ℝ))
      (dae : DaeObj ℝ) (t : List ℝ) (order : ℕ) (method : String) (tdp_fun : Option (ℝ → Mat ℝ))
      (d : DaeObj ℝ) (xdot res : MXExpr ℝ) (F : CsFn ℝ) (rep : Bool) (s : Scheme ℝ),
      SchemePre freshI casadiPoints csFunction dae t order method tdp_fun d xdot res tau F →
      Scheme.new fresh freshI casadiPoints csFunction dae t order method tdp_fun rep = .ok s →
      Ascending t → fresh "x" ≠ fresh "K" →
      ∀ (x Kv : Mat ℝ) (env : Env ℝ), x.rows = d.nx ∧ x.cols = s.N + 1 → Kv.rows = d.nx ∧ Kv.cols = s.N * s.M →
      (∀ i n, s.x.val env i n = x.e i n) → (∀ i c, s.Kd.val env i c = Kv.e i c) →
      ∀ (y : ℕ → ℝ → ℝ) (f : ℕ → ℕ → ℝ → ℝ) (B : ℝ), 0 ≤ B →
      (∀ n < s.N, ∀ i < d.nx, ∀ τ ∈ Icc (nd t n) (nd t (n + 1)), HasDerivWithinAt (y i) (f n i τ) (Icc (nd t n) (nd t (n + 1))) τ) →
      (∀ n < s.N, ∀ i < d.nx, ContDiffOn ℝ s.M (f n i) (Icc (nd t n) (nd t (n + 1)))) →
      (∀ n < s.N, ∀ i < d.nx, ∀ τ ∈ Icc (nd t n) (nd t (n + 1)),
        |iteratedDerivWithin s.M (f n i) (Icc (nd t n) (nd t (n + 1))) τ| ≤ B) →
      ∃ pp dpp, s.piecewisePolyX fresh x Kv = .ok pp ∧ pp.derivative = .ok dpp ∧ ∀ ts : List ℝ, ts ≠ [] →
        ∃ V DV, pp.call ts = .ok V ∧ dpp.call ts = .ok DV ∧ V.rows = d.nx ∧ V.cols = ts.length ∧ DV.rows = d.nx ∧ DV.cols = ts.length ∧
        ∀ k < ts.length, ∀ n < s.N, nd ts k ∈ Icc (nd t n) (nd t (n + 1)) → (nd ts k < nd t (n + 1) ∨ n + 1 = s.N) → ∀ i < d.nx,
          let h := nd t (n + 1) - nd t n
          (∀ E, |x.e i n - y i (nd t n)| ≤ E →
            (∀ j < s.M, |s.X.val env i (n * s.M + j) - y i (nd s.tc (n * s.M + j))| ≤ E) →
            |V.e i k - y i (nd ts k)| ≤ Λ * E + B * h ^ (s.M + 1) ∧
            h * |DV.e i k - f n i (nd ts k)| ≤ Λ * E + B * h ^ (s.M + 1)) ∧
          ∀ G, (∀ j < s.M, |Kv.e i (n * s.M + j) - f n i (nd s.tc (n * s.M + j))| ≤ G) →
            |DV.e i k - f n i (nd ts k)| ≤ Λ * G + B * h ^ s.M := by
  obtain ⟨Λ₁, hΛ₁, h1⟩ := dense_error hd hz h01
  obtain ⟨Λ₂, hΛ₂, h2⟩ := dense_deriv_error hd h01
  refine ⟨Λ₁ + Λ₂, by positivity, fun fresh freshI casadiPoints csFunction dae t order method tdp_fun d xdot res F rep s pre hs hasc hf x Kv
    env hx hK hex heK y f B hB hder hsm hbd => ?_⟩
  obtain ⟨pp, dpp, hpp, hdpp, -, hcall, -⟩ := C30_piecewisePolyX fresh freshI casadiPoints csFunction dae t order method tdp_fun d xdot res
    tau F rep s pre hs hd hz hasc hf x Kv hx hK env hex heK
  refine ⟨pp, dpp, hpp, hdpp, fun ts hts => ?_⟩
  obtain ⟨V, DV, hV, hDV, r1, r2, r3, r4, hval⟩ := hcall ts hts
  refine ⟨V, DV, hV, hDV, r1, r2, r3, r4, fun k hk n hn hin hside i hi => ?_⟩
  have b := pre.built hs
  have hN := b.N_eq
  have hM := b.M_eq
  have hlen := pre.len
  have hpos := pre.pos
  have hlt : nd t n < nd t (n + 1) := hasc n (by omega)
  have h24 := C24_state_integration fresh freshI casadiPoints csFunction dae t order method tdp_fun d xdot res tau F rep s pre hs hd env i n hn
  obtain ⟨P, hP, -⟩ := h24.1 hlt.ne
  have hX := (h24.2 P hP).1
  obtain ⟨e1, e2⟩ := hval k hk n ⟨by omega, .inr hin.1, hside.symm.imp (fun h => by omega) id⟩ i P hP
  rw [e1, e2]
  have hsM : s.M = tau.length := by omega
  have htc : ∀ j < s.M, nd s.tc (n * s.M + j) = nd t n + (nd t (n + 1) - nd t n) * nd tau j := by
    intro j hj
    rw [hM] at hj ⊢
    exact b.tc n j (by omega) hj
  have hPd : P.degree < (tau.length + 1 : ℕ) := by
    refine lt_of_le_of_lt hP.degree ?_
    rw [hsM]
    exact_mod_cast Nat.lt_succ_self _
  intro h
  have hh : 0 < h := sub_pos.mpr hlt
  have hst := hP.start
  rw [b.t_eq, hex] at hst
  constructor
  · intro E hE hEX
    have hE0 : 0 ≤ E := (abs_nonneg _).trans hE
    obtain ⟨k1, k2⟩ := h1 (nd t n) (nd t (n + 1)) B E (y i) (f n i) P hlt hB (hder n hn i hi) (by rw [← hsM]; exact hsm n hn i hi)
      (by rw [← hsM]; exact hbd n hn i hi) hPd (by rw [hst]; exact hE) (fun j hj => by
        rw [← htc j (by omega), ← hX j (by omega)]
        exact hEX j (by omega)) _ hin
    have := mul_nonneg hΛ₂ hE0
    rw [hsM]
    constructor <;> nlinarith
  · intro G hG
    have hG0 : 0 ≤ G := (abs_nonneg _).trans (hG 0 (by omega))
    have hdP : (derivative P).degree < tau.length := by
      by_cases h0 : P = 0
      · rw [h0, derivative_zero, degree_zero]
        exact WithBot.bot_lt_coe _
      · refine lt_of_lt_of_le (degree_derivative_lt h0) ?_
        rw [← hsM]
        exact hP.degree
    have k1 := h2 (nd t n) (nd t (n + 1)) B G (f n i) (derivative P) hlt hB (by rw [← hsM]; exact hsm n hn i hi)
      (by rw [← hsM]; exact hbd n hn i hi) hdP (fun j hj => by
        rw [← htc j (by omega), hP.deriv j (by omega), heK]
        exact hG j (by omega)) _ hin
    have := mul_nonneg hΛ₁ hG0
    rw [hsM]
    nlinarith

section
variable (fresh freshI : String → ℕ) (casadiPoints : ℕ → String → Except PyErr (List ℝ))
    (csFunction : List (MXExpr ℝ) → List (MXExpr ℝ) → Except PyErr (CsFn ℝ))
    (dae : DaeObj ℝ) (t : List ℝ) (order : ℕ) (method : String) (tdp_fun : Option (ℝ → Mat ℝ))
    (d : DaeObj ℝ) (xdot res : MXExpr ℝ) (tau : List ℝ) (F : CsFn ℝ)

/-- The assignment that belongs to the outputs of a call of the integrator. -/
theorem integrator_env
    (pre : SchemePre freshI casadiPoints csFunction dae t order method tdp_fun d xdot res tau F)
    (hfr : DistinctSyms fresh) (hpq : dae.np = 0 ∨ dae.nq = 0)
    (rootfinder : (List ℝ → List ℝ) → List ℝ → Except PyErr (List ℝ)) (hrf : IsRootfinder rootfinder) :
    ∃ g, Integrator.new fresh freshI casadiPoints csFunction dae t order method tdp_fun = .ok g ∧
      Scheme.new fresh freshI casadiPoints csFunction dae t order method tdp_fun = .ok g.scheme ∧
      ∀ x0 z0 u p out, g.call rootfinder x0 z0 u p = .ok out → ∃ env : Env ℝ,
        (∀ v ∈ g.scheme.eq.vals env, v = 0) ∧ g.scheme.u.val env = u.e ∧ g.scheme.p.val env = p.e ∧
        (∀ i < d.nx, g.scheme.x.val env i 0 = x0.e i 0) ∧ out.x = g.scheme.x.at' env ∧ out.Kd = g.scheme.Kd.at' env ∧
        g.integrate fresh rootfinder x0 z0 u p = (g.scheme.piecewisePolyX fresh out.x out.Kd).map fun tr => (out, tr) := by
  obtain ⟨s, x1, hs, -, hx1v, hnew⟩ := integrator_new fresh freshI casadiPoints csFunction dae t order method tdp_fun d xdot res tau F
    pre
  rw [if_neg (by omega)] at hnew
  have b := pre.built hs
  obtain ⟨px, -⟩ := makeImplicit_parts pre.impl
  have hnx : dae.nx = d.nx := by simp [DaeObj.nx, px]
  refine ⟨_, hnew, hs, fun x0 z0 u p out hcall => ?_⟩
  have hcall0 := hcall
  unfold Integrator.call at hcall
  simp only [bind, Except.bind] at hcall
  split at hcall
  · cases hcall
  rename_i sol hsol
  have hroot := (hrf _ _ _ hsol).2
  have hout := Except.ok.inj hcall
  set env := Integrator.envOf fresh s sol u p with henv
  refine ⟨env, fun v hv => hroot v (List.mem_append_left _ hv), ?_, ?_, fun i hi => ?_, by rw [← hout], by rw [← hout], ?_⟩
  · show s.u.val env = u.e
    rw [b.u]
    show Integrator.envOf fresh s sol u p (fresh "u") = _
    rw [Integrator.envOf, if_neg hfr.xu.symm, if_neg hfr.Ku.symm, if_neg hfr.Zu.symm, if_pos rfl]
  · show s.p.val env = p.e
    rw [b.p]
    show Integrator.envOf fresh s sol u p (fresh "P") = _
    rw [Integrator.envOf, if_neg hfr.xP.symm, if_neg hfr.KP.symm, if_neg hfr.ZP.symm, if_neg hfr.uP.symm, if_pos rfl]
  · have := hroot (x1.val env i 0 - x0.e i 0)
      (List.mem_append_right _ (List.mem_map.mpr ⟨i, List.mem_range.mpr (by omega), rfl⟩))
    rw [hx1v] at this
    exact sub_eq_zero.mp this
  · unfold Integrator.integrate
    rw [hcall0]
    simp only [bind, Except.bind]
    cases s.piecewisePolyX fresh out.x out.Kd <;> rfl

end

/-- Every time between the first and the last grid point lies in an interval. -/
theorem exists_interval {t : List ℝ} (two : 2 ≤ t.length) {τ : ℝ} (h0 : nd t 0 ≤ τ) (h1 : τ ≤ nd t (t.length - 1)) :
    ∃ n < t.length - 1, τ ∈ Icc (nd t n) (nd t (n + 1)) ∧ (τ < nd t (n + 1) ∨ n + 1 = t.length - 1) := by
  obtain ⟨n, hn⟩ := exists_inSide two .right τ
  change InRight t n τ at hn
  obtain ⟨a, b, c⟩ := hn
  refine ⟨n, by omega, ⟨?_, ?_⟩, c.symm.imp id fun h => by omega⟩
  · rcases b with rfl | b
    · exact h0
    · exact b
  · rcases c with c | c
    · rwa [show n + 1 = t.length - 1 by omega]
    · exact c.le

/-- **C99** (small steps) For a model of index one, steps as in C88 and nodes other than 0, the trajectory that `integrate` returns: its
distance from the exact solution at every time between the first and the last grid point is at most a constant, which depends on the nodes only,
times the bound of C88, plus `B*H^(M+1)`, and its derivative is as accurate as the states. -/
theorem C99_integrate (tau : List ℝ) (hd : tau.Nodup) (hz : 0 ∉ tau) (h01 : ∀ k < tau.length, nd tau k ∈ Icc (0 : ℝ) 1) :
    ∃ C ≥ 0, ∀ (fresh freshI : String → ℕ) (casadiPoints : ℕ → String → Except PyErr (List ℝ))
      (csFunction : List (MXExpr ℝ) → List (MXExpr ℝ) → Except PyErr (CsFn ℝ))
      (dae : DaeObj ℝ) (t : List ℝ) (order : ℕ) (method : String) (tdp_fun : Option (ℝ → Mat ℝ))
      (d : DaeObj ℝ) (xdot res : MXExpr ℝ) (F : CsFn ℝ), IsCsFunction csFunction →
      SchemePre freshI casadiPoints csFunction dae t order method tdp_fun d xdot res tau F →
      DistinctSyms fresh → dae.np = 0 ∨ dae.nq = 0 →
      ∀ (L Lz θ : ℝ), IndexOne d xdot res L Lz →
      ∀ (T : ButcherTableau ℝ), butcherTableuForCollocationPoints tau = .ok T → ∀ (α β H : ℝ),
      (∀ j < order, ∑ k ∈ Finset.range order, |T.A.e [j, k]| ≤ α) → ∑ k ∈ Finset.range order, |T.b.e [k]| ≤ β →
      (∀ n < t.length - 1, nd t n < nd t (n + 1) ∧ nd t (n + 1) - nd t n ≤ H) → θ < 1 → L * (H * α) ≤ θ →
      ∀ rootfinder : (List ℝ → List ℝ) → List ℝ → Except PyErr (List ℝ), IsRootfinder rootfinder →
      ∃ g, Integrator.new fresh freshI casadiPoints csFunction dae t order method tdp_fun = .ok g ∧
      ∀ x0 z0 u p out, g.call rootfinder x0 z0 u p = .ok out →
      ∀ (y : ℕ → ℝ → ℝ) (f ζ : ℕ → ℕ → ℝ → ℝ), ExactDae d xdot res tdp_fun t u.e (fun i => p.e i 0) y f ζ →
      ∀ B, 0 ≤ B → (∀ n < t.length - 1, ∀ i < d.nx, ContDiffOn ℝ order (f n i) (Icc (nd t n) (nd t (n + 1)))) →
      (∀ n < t.length - 1, ∀ i < d.nx, ∀ τ ∈ Icc (nd t n) (nd t (n + 1)),
        |iteratedDerivWithin order (f n i) (Icc (nd t n) (nd t (n + 1))) τ| ≤ B) →
      ∀ ε, 0 ≤ ε → (∀ i < d.nx, |x0.e i 0 - y i (nd t 0)| ≤ ε) →
      let Λ := β * L / (1 - θ)
      let D := B * H ^ order / ((order - 1).factorial : ℝ)
      let bound := fun τ => (Real.exp (Λ * (τ - nd t 0)) * (ε + (τ - nd t 0) * ((1 + β + Λ * H * (1 + α)) * D)) + H * (1 + α) * D) / (1 - θ)
      ∃ tr dtr, g.integrate fresh rootfinder x0 z0 u p = .ok (out, tr) ∧ tr.derivative = .ok dtr ∧ ∀ ts : List ℝ, ts ≠ [] →
        ∃ V DV, tr.call ts = .ok V ∧ dtr.call ts = .ok DV ∧ V.rows = d.nx ∧ V.cols = ts.length ∧ DV.rows = d.nx ∧ DV.cols = ts.length ∧
        ∀ k < ts.length, nd t 0 ≤ nd ts k → nd ts k ≤ nd t (t.length - 1) → ∀ i < d.nx,
          |V.e i k - y i (nd ts k)| ≤ C * bound (nd ts k) + B * H ^ (order + 1) ∧
          ∀ n < t.length - 1, nd ts k ∈ Icc (nd t n) (nd t (n + 1)) → (nd ts k < nd t (n + 1) ∨ n + 1 = t.length - 1) →
            |DV.e i k - f n i (nd ts k)| ≤ C * (L * bound (nd ts k)) + B * H ^ order := by
  obtain ⟨C, hC, htraj⟩ := C99_trajectory tau hd hz h01
  refine ⟨C, hC, fun fresh freshI casadiPoints csFunction dae t order method tdp_fun d xdot res F hcs pre hfr hpq L Lz θ ix T hT α β H hα hβ
    ht hθ hstep rootfinder hrf => ?_⟩
  obtain ⟨g, hg, hs, hcall⟩ := integrator_env fresh freshI casadiPoints csFunction dae t order method tdp_fun d xdot res tau F pre hfr hpq
    rootfinder hrf
  refine ⟨g, hg, fun x0 z0 u p out hout y f ζ hex B hB0 hsm hB ε hε h0 => ?_⟩
  obtain ⟨env, heq, hu, hp, hx0, hox, hoK, hint⟩ := hcall x0 z0 u p out hout
  intro Λ D bound
  generalize g.scheme = s at *
  have b := pre.built hs
  have hN := b.N_eq
  have hM := b.M_eq
  have htwo := pre.two
  have hasc : Ascending t := fun n hn => (ht n (by omega)).1
  have hf : [fresh "x", fresh "K", fresh "Z", fresh "u", fresh "P"].Nodup := by
    simp [hfr.xK, hfr.xZ, hfr.xu, hfr.xP, hfr.KZ, hfr.Ku, hfr.KP, hfr.Zu, hfr.ZP, hfr.uP]
  obtain ⟨c1, c2⟩ := C88_convergence fresh freshI casadiPoints csFunction dae t order method tdp_fun d xdot res tau F false s hcs pre hs hf L
    Lz θ ix hd h01 T hT α β H (by rw [hM]; exact hα) (by rw [hM]; exact hβ) (by rw [hN]; exact fun n hn => ⟨(ht n hn).1.le, (ht n hn).2⟩) hθ
    hstep env heq y f ζ (by rw [hu, hp]; exact hex) B ε (by rw [hN, hM]; exact hsm) (by rw [hN, hM]; exact hB) hB0 hε
    (fun i hi => by rw [hx0 i hi]; exact h0 i hi)
  obtain ⟨pp, dpp, hpp, hdpp, hts⟩ := htraj fresh freshI casadiPoints csFunction dae t order method tdp_fun d xdot res F false s pre hs hasc
    hfr.xK out.x out.Kd env (by rw [hox, b.x, hN]; exact ⟨pre.wf.nx.symm, rfl⟩) (by rw [hoK, b.Kd, hN, hM]; exact ⟨pre.wf.nx.symm, rfl⟩)
    (fun i n => by rw [hox]; rfl) (fun i c => by rw [hoK]; rfl) y f B hB0 (by rw [hN]; exact hex.deriv) (by rw [hN, hM]; exact hsm)
    (by rw [hN, hM]; exact hB)
  refine ⟨pp, dpp, by rw [hint, hpp]; rfl, hdpp, fun ts hne => ?_⟩
  obtain ⟨V, DV, hV, hDV, r1, r2, r3, r4, hb⟩ := hts ts hne
  refine ⟨V, DV, hV, hDV, r1, r2, r3, r4, fun k hk hlo hhi i hi => ?_⟩
  rw [hN, hM] at hb c2
  have hL := ix.nonneg
  have hH : 0 ≤ H := by
    have := ht 0 (by omega)
    linarith [this.1, this.2]
  have hα0 : 0 ≤ α := (Finset.sum_nonneg fun _ _ => abs_nonneg _).trans (hα 0 pre.pos)
  have hβ0 : 0 ≤ β := (Finset.sum_nonneg fun _ _ => abs_nonneg _).trans hβ
  have h1θ : 0 < 1 - θ := by linarith
  have hθ0 : 0 ≤ θ := (mul_nonneg hL (mul_nonneg hH hα0)).trans hstep
  have hΛ : 0 ≤ Λ := div_nonneg (mul_nonneg hβ0 hL) h1θ.le
  have hD : 0 ≤ D := by positivity
  have key : ∀ n < t.length - 1, nd ts k ∈ Icc (nd t n) (nd t (n + 1)) → ∀ c : ℝ,
      c = (Real.exp (Λ * (nd t n - nd t 0)) * (ε + (nd t n - nd t 0) * ((1 + β + Λ * H * (1 + α)) * D)) + H * (1 + α) * D) / (1 - θ) →
      c ≤ bound (nd ts k) ∧ Real.exp (Λ * (nd t n - nd t 0)) * (ε + (nd t n - nd t 0) * ((1 + β + Λ * H * (1 + α)) * D)) ≤ c := by
    intro n hn hin c hc
    have hn0 : 0 ≤ nd t n - nd t 0 := by
      rcases Nat.eq_zero_or_pos n with rfl | hp
      · simp
      · exact sub_nonneg.mpr (hasc.lt hp (by omega)).le
    have hle : nd t n - nd t 0 ≤ nd ts k - nd t 0 := by linarith [hin.1]
    constructor
    · rw [hc]
      simp only [bound]
      gcongr
    · rw [hc, le_div_iff₀ h1θ]
      have q0 : 0 ≤ Real.exp (Λ * (nd t n - nd t 0)) * (ε + (nd t n - nd t 0) * ((1 + β + Λ * H * (1 + α)) * D)) := by positivity
      have q1 : 0 ≤ H * (1 + α) * D := by positivity
      nlinarith [mul_nonneg q0 hθ0]
  have hstepn : ∀ n < t.length - 1, ∀ q : ℕ, B * (nd t (n + 1) - nd t n) ^ q ≤ B * H ^ q := by
    intro n hn q
    have := ht n hn
    exact mul_le_mul_of_nonneg_left (pow_le_pow_left₀ (by linarith) this.2 _) hB0
  constructor
  · obtain ⟨n, hn, hin, hside⟩ := exists_interval htwo hlo hhi
    obtain ⟨k1, k2⟩ := key n hn hin _ rfl
    refine ((hb k hk n hn hin hside i hi).1 (bound (nd ts k)) ?_ fun j hj => ?_).1.trans (add_le_add le_rfl (hstepn n hn _))
    · have := c1 n (by omega) i hi
      rw [show out.x.e i n = s.x.val env i n by rw [hox]; rfl]
      rw [hM] at this
      exact this.trans (k2.trans k1)
    · exact ((c2 n hn j hj).1 i hi).trans k1
  · intro n hn hin hside
    obtain ⟨k1, k2⟩ := key n hn hin _ rfl
    refine ((hb k hk n hn hin hside i hi).2 (L * bound (nd ts k)) fun j hj => ?_).trans (add_le_add le_rfl (hstepn n hn _))
    rw [show out.Kd.e i (n * order + j) = s.Kd.val env i (n * order + j) by rw [hoK]; rfl]
    exact ((c2 n hn j hj).2.1 i hi).trans (mul_le_mul_of_nonneg_left k1 hL)

/-- **C99** (contractive models) Gauss or Radau nodes and a positive definite form determine a constant such that for every model that is
contractive with respect to the form, and every increasing grid, the distance of the trajectory that `integrate` returns from the exact solution
is at most the constant times `e0 + B*(t-t0)*H^M + B*H^(M+1)` at every time `t` between the first and the last grid point, and that of its
derivative at most this divided by the length of the interval. -/
theorem C99_contractive (tau : List ℝ) (hnode : IsGauss tau ∨ IsRadau tau) (S : ℕ → ℕ → ℝ) (m : ℕ)
    (hpd : ∀ v : ℕ → ℝ, (∃ i < m, v i ≠ 0) → 0 < qform S m v) :
    ∃ C ≥ 0, ∀ (fresh freshI : String → ℕ) (casadiPoints : ℕ → String → Except PyErr (List ℝ))
      (csFunction : List (MXExpr ℝ) → List (MXExpr ℝ) → Except PyErr (CsFn ℝ))
      (dae : DaeObj ℝ) (t : List ℝ) (order : ℕ) (method : String) (tdp_fun : Option (ℝ → Mat ℝ))
      (d : DaeObj ℝ) (xdot res : MXExpr ℝ) (F : CsFn ℝ), IsCsFunction csFunction →
      SchemePre freshI casadiPoints csFunction dae t order method tdp_fun d xdot res tau F →
      DistinctSyms fresh → dae.np = 0 ∨ dae.nq = 0 → d.nx = m → Contractive d xdot res S →
      ∀ H, (∀ n < t.length - 1, nd t n < nd t (n + 1) ∧ nd t (n + 1) - nd t n ≤ H) →
      ∀ rootfinder : (List ℝ → List ℝ) → List ℝ → Except PyErr (List ℝ), IsRootfinder rootfinder →
      ∃ g, Integrator.new fresh freshI casadiPoints csFunction dae t order method tdp_fun = .ok g ∧
      ∀ x0 z0 u p out, g.call rootfinder x0 z0 u p = .ok out →
      ∀ (y : ℕ → ℝ → ℝ) (f ζ : ℕ → ℕ → ℝ → ℝ), ExactDae d xdot res tdp_fun t u.e (fun i => p.e i 0) y f ζ →
      ∀ B, 0 ≤ B → (∀ n < t.length - 1, ∀ i < m, ContDiffOn ℝ order (f n i) (Icc (nd t n) (nd t (n + 1)))) →
      (∀ n < t.length - 1, ∀ i < m, ∀ τ ∈ Icc (nd t n) (nd t (n + 1)),
        |iteratedDerivWithin order (f n i) (Icc (nd t n) (nd t (n + 1))) τ| ≤ B) →
      ∀ ε, 0 ≤ ε → (∀ i < m, |x0.e i 0 - y i (nd t 0)| ≤ ε) →
      let bound := fun τ => C * (ε + B * (τ - nd t 0) * H ^ order + B * H ^ (order + 1))
      ∃ tr dtr, g.integrate fresh rootfinder x0 z0 u p = .ok (out, tr) ∧ tr.derivative = .ok dtr ∧ ∀ ts : List ℝ, ts ≠ [] →
        ∃ V DV, tr.call ts = .ok V ∧ dtr.call ts = .ok DV ∧ V.rows = m ∧ V.cols = ts.length ∧ DV.rows = m ∧ DV.cols = ts.length ∧
        ∀ k < ts.length, nd t 0 ≤ nd ts k → nd ts k ≤ nd t (t.length - 1) → ∀ i < m,
          |V.e i k - y i (nd ts k)| ≤ bound (nd ts k) ∧
          ∀ n < t.length - 1, nd ts k ∈ Icc (nd t n) (nd t (n + 1)) → (nd ts k < nd t (n + 1) ∨ n + 1 = t.length - 1) →
            (nd t (n + 1) - nd t n) * |DV.e i k - f n i (nd ts k)| ≤ bound (nd ts k) := by
  obtain ⟨hd, hin01, -⟩ := C94_inside tau hnode
  have hz : 0 ∉ tau := fun h => lt_irrefl _ (hin01 0 h).1
  have h01 : ∀ k < tau.length, nd tau k ∈ Icc (0 : ℝ) 1 := by
    intro k hk
    have := hin01 (nd tau k) (by rw [nd_eq_getElem hk]; exact List.getElem_mem hk)
    exact ⟨this.1.le, this.2⟩
  obtain ⟨C₀, hC₀, htraj⟩ := C99_trajectory tau hd hz h01
  obtain ⟨C₁, hC₁, h96⟩ := C96_components tau hnode S m hpd
  refine ⟨C₀ * C₁ + 1, by positivity, fun fresh freshI casadiPoints csFunction dae t order method tdp_fun d xdot res F hcs pre hfr hpq hm law H
    ht rootfinder hrf => ?_⟩
  obtain ⟨g, hg, hs, hcall⟩ := integrator_env fresh freshI casadiPoints csFunction dae t order method tdp_fun d xdot res tau F pre hfr hpq
    rootfinder hrf
  refine ⟨g, hg, fun x0 z0 u p out hout y f ζ hex B hB0 hsm hB ε hε h0 => ?_⟩
  obtain ⟨env, heq, hu, hp, hx0, hox, hoK, hint⟩ := hcall x0 z0 u p out hout
  intro bound
  generalize g.scheme = s at *
  have b := pre.built hs
  have hN := b.N_eq
  have hM := b.M_eq
  have htwo := pre.two
  have hasc : Ascending t := fun n hn => (ht n (by omega)).1
  have hf : [fresh "x", fresh "K", fresh "Z", fresh "u", fresh "P"].Nodup := by
    simp [hfr.xK, hfr.xZ, hfr.xu, hfr.xP, hfr.KZ, hfr.Ku, hfr.KP, hfr.Zu, hfr.ZP, hfr.uP]
  obtain ⟨c1, c2⟩ := h96 fresh freshI casadiPoints csFunction dae t order method tdp_fun d xdot res F false s hcs pre hs hf hm law H
    (by rw [hN]; exact ht) env heq y f ζ (by rw [hu, hp]; exact hex) B hB0 (by rw [hN, hM]; exact hsm) (by rw [hN, hM]; exact hB) ε hε
    (fun i hi => by rw [hx0 i (by omega)]; exact h0 i hi)
  obtain ⟨pp, dpp, hpp, hdpp, hts⟩ := htraj fresh freshI casadiPoints csFunction dae t order method tdp_fun d xdot res F false s pre hs hasc
    hfr.xK out.x out.Kd env (by rw [hox, b.x, hN]; exact ⟨pre.wf.nx.symm, rfl⟩) (by rw [hoK, b.Kd, hN, hM]; exact ⟨pre.wf.nx.symm, rfl⟩)
    (fun i n => by rw [hox]; rfl) (fun i c => by rw [hoK]; rfl) y f B hB0 (by rw [hN]; exact hex.deriv) (by rw [hN, hM, hm]; exact hsm)
    (by rw [hN, hM, hm]; exact hB)
  refine ⟨pp, dpp, by rw [hint, hpp]; rfl, hdpp, fun ts hne => ?_⟩
  obtain ⟨V, DV, hV, hDV, r1, r2, r3, r4, hb⟩ := hts ts hne
  rw [hm] at r1 r3
  refine ⟨V, DV, hV, hDV, r1, r2, r3, r4, fun k hk hlo hhi i hi => ?_⟩
  rw [hN, hM] at hb c2
  rw [hM, hN] at c1
  have hH : 0 ≤ H := by
    have := ht 0 (by omega)
    linarith [this.1, this.2]
  have key : ∀ n < t.length - 1, nd ts k ∈ Icc (nd t n) (nd t (n + 1)) → (nd ts k < nd t (n + 1) ∨ n + 1 = t.length - 1) →
      |V.e i k - y i (nd ts k)| ≤ bound (nd ts k) ∧ (nd t (n + 1) - nd t n) * |DV.e i k - f n i (nd ts k)| ≤ bound (nd ts k) := by
    intro n hn hin hside
    have hn0 : 0 ≤ nd t n - nd t 0 := by
      rcases Nat.eq_zero_or_pos n with rfl | hp
      · simp
      · exact sub_nonneg.mpr (hasc.lt hp (by omega)).le
    have hle : nd t n - nd t 0 ≤ nd ts k - nd t 0 := by linarith [hin.1]
    have hk0 : 0 ≤ nd ts k - nd t 0 := hn0.trans hle
    have hE : C₁ * (ε + B * (nd t n - nd t 0) * H ^ order + B * H ^ (order + 1)) ≤
        C₁ * (ε + B * (nd ts k - nd t 0) * H ^ order + B * H ^ (order + 1)) := by gcongr
    have hBH : 0 ≤ B * H ^ (order + 1) := by positivity
    have := (hb k hk n hn hin hside i (by omega)).1 (C₁ * (ε + B * (nd ts k - nd t 0) * H ^ order + B * H ^ (order + 1))) (by
      rw [show out.x.e i n = s.x.val env i n by rw [hox]; rfl]
      refine (c1 n hn.le i hi).trans (le_trans ?_ hE)
      exact mul_le_mul_of_nonneg_left (le_add_of_nonneg_right hBH) hC₁) (fun j hj => (c2 n hn j hj i hi).trans hE)
    have hst : B * (nd t (n + 1) - nd t n) ^ (order + 1) ≤ B * H ^ (order + 1) := by
      have := ht n hn
      exact mul_le_mul_of_nonneg_left (pow_le_pow_left₀ (by linarith) this.2 _) hB0
    have hlast : C₀ * (C₁ * (ε + B * (nd ts k - nd t 0) * H ^ order + B * H ^ (order + 1))) + B * (nd t (n + 1) - nd t n) ^ (order + 1) ≤
        bound (nd ts k) := by
      simp only [bound]
      have q1 : 0 ≤ ε + B * (nd ts k - nd t 0) * H ^ order := by positivity
      linarith
    exact ⟨this.1.trans hlast, this.2.trans hlast⟩
  refine ⟨?_, fun n hn hin hside => (key n hn hin hside).2⟩
  obtain ⟨n, hn, hin, hside⟩ := exists_interval htwo hlo hhi
  exact (key n hn hin hside).1

/-! ## Non-vacuity -/

open Classical in
/-- A root finder that finds a root whenever there is one. -/
noncomputable def idealRoot (f : List ℝ → List ℝ) (w0 : List ℝ) : Except PyErr (List ℝ) :=
  if h : ∃ w : List ℝ, w.length = w0.length ∧ ∀ v ∈ f w, v = 0 then .ok (Classical.choose h) else .error .runtime

theorem idealRoot_spec : IsRootfinder idealRoot := by
  intro f w0 sol h
  unfold idealRoot at h
  split at h
  · rename_i hex
    cases h
    exact Classical.choose_spec hex
  · cases h

theorem idealRoot_ok {f : List ℝ → List ℝ} {w0 : List ℝ} (h : ∃ w : List ℝ, w.length = w0.length ∧ ∀ v ∈ f w, v = 0) :
    ∃ sol, idealRoot f w0 = .ok sol := by
  unfold idealRoot
  rw [dif_pos h]
  exact ⟨_, rfl⟩

/-- One constant for all `λ >= 0`: for `x' = cos(t) - λ*(x - sin(t))` from `0`, `integrate` returns a trajectory that differs from `sin(t)` at
most by the constant times `t*H^M + H^(M+1)` at all times between the first and the last grid point. -/
example (tau : List ℝ) (hnode : IsGauss tau ∨ IsRadau tau) (hpos : 0 < tau.length) (freshI : String → ℕ) (hI : 7 ≤ freshI "xdot") :
    ∃ C ≥ 0, ∀ (l : ℝ) (t : List ℝ) (H : ℝ), 0 ≤ l → 2 ≤ t.length → nd t 0 = 0 →
      (∀ n < t.length - 1, nd t n < nd t (n + 1) ∧ nd t (n + 1) - nd t n ≤ H) → ∃ g,
      Integrator.new exFresh freshI (fun _ _ => .ok tau) idealCsFunction (stiffO l) t tau.length "legendre" none = .ok g ∧
      ∀ z0 u p, ∃ out tr, g.integrate exFresh idealRoot ⟨1, 1, fun _ _ => 0⟩ z0 u p = .ok (out, tr) ∧
        ∀ τ, 0 ≤ τ → τ ≤ nd t (t.length - 1) → ∃ V, tr.call [τ] = .ok V ∧
          |V.e 0 0 - Real.sin τ| ≤ C * (τ * H ^ tau.length + H ^ (tau.length + 1)) := by
  have hq : PosDefForm (fun _ _ => 1) 1 := by
    rintro v ⟨i, hi, hv⟩
    obtain rfl : i = 0 := by omega
    show 0 < ∑ i ∈ Finset.range 1, ∑ j ∈ Finset.range 1, _
    simp only [Finset.sum_range_one, one_mul]
    exact mul_self_pos.mpr hv
  obtain ⟨C, hC, h99⟩ := C99_contractive tau hnode (fun _ _ => 1) 1 hq
  refine ⟨C, hC, fun l t H hl two h0 ht => ?_⟩
  obtain ⟨F, pre⟩ := stiff_pre l freshI hI t tau two hpos
  obtain ⟨g, hg, h⟩ := h99 exFresh freshI _ _ _ _ _ _ _ _ _ _ _ idealCsFunction_spec pre (by constructor <;> decide) (.inl rfl) rfl
    (stiff_contractive l hl freshI) H ht idealRoot idealRoot_spec
  obtain ⟨g', hg', hroot⟩ := C98_unique_root exFresh freshI _ _ _ _ _ _ _ _ _ _ _ _ idealCsFunction_spec pre (by constructor <;> decide)
    (.inl rfl) (stiff_locLipschitz l hl freshI) hnode _ hq (stiff_contractive l hl freshI) (fun n hn => (ht n hn).1)
  rw [hg] at hg'
  cases hg'
  refine ⟨g, hg, fun z0 u p => ?_⟩
  obtain ⟨w, hw, -⟩ := hroot ⟨1, 1, fun _ _ => 0⟩ z0 u p
  obtain ⟨sol, hsol⟩ := idealRoot_ok (f := fun w => g.residual w ⟨1, 1, fun _ _ => 0⟩ u p) (w0 := g.w0 ⟨1, 1, fun _ _ => 0⟩ z0) ⟨w, hw⟩
  have hcall : ∃ out, g.call idealRoot ⟨1, 1, fun _ _ => 0⟩ z0 u p = .ok out := by
    unfold Integrator.call
    rw [hsol]
    exact ⟨_, rfl⟩
  obtain ⟨out, hout⟩ := hcall
  obtain ⟨tr, dtr, htr, -, key⟩ := h _ z0 u p out hout (fun _ τ => Real.sin τ) (fun _ _ τ => Real.cos τ) (fun _ _ _ => 0)
    ⟨fun n _ i _ τ _ => (Real.hasDerivAt_sin τ).hasDerivWithinAt, fun n _ τ _ e h => (stiff_zero l freshI e).mpr (by
      have h1 := h.xdot 0 Nat.one_pos
      have h2 := h.x 0 Nat.one_pos
      have h3 := h.t
      simp only [stiffD, MXExpr.sym] at h1 h2 h3
      rw [h1, h2, h3]
      ring)⟩ 1 zero_le_one (fun n _ i _ => Real.contDiff_cos.contDiffOn) (fun n hn i _ τ hτ => by
        rw [iteratedDerivWithin_eq_iteratedDeriv (uniqueDiffOn_Icc (ht n hn).1) Real.contDiff_cos.contDiffAt hτ]
        exact (abs_iteratedDeriv_trig _ τ).2) 0 le_rfl (fun i hi => by
        rw [h0, Real.sin_zero, sub_self, abs_zero])
  refine ⟨out, tr, htr, fun τ hτ0 hτ1 => ?_⟩
  obtain ⟨V, DV, hV, -, -, -, -, -, hv⟩ := key [τ] (by simp)
  refine ⟨V, hV, ?_⟩
  have := (hv 0 (by simp) (by rw [h0]; exact hτ0) hτ1 0 Nat.one_pos).1
  rw [h0] at this
  simpa [nd] using this

/-- The index-one model `x' = -z`, `0 = z - x` from `1` with the midpoint rule and steps of at most `H <= 1`: every trajectory that `integrate`
returns differs from `exp(-t)` at most by a constant times `(exp(2*t)*5*t + 2)*H`, at all times. -/
example : ∃ C ≥ 0, ∀ (freshI : String → ℕ), 7 ≤ freshI "xdot" → ∀ (t : List ℝ) (H : ℝ), 2 ≤ t.length → H ≤ 1 → nd t 0 = 0 →
    (∀ n < t.length - 1, nd t n < nd t (n + 1) ∧ nd t (n + 1) - nd t n ≤ H) → ∃ g,
    Integrator.new exFresh freshI (fun _ _ => .ok [1 / 2]) idealCsFunction loopO t 1 "legendre" none = .ok g ∧
    ∀ z0 u p out, g.call idealRoot ⟨1, 1, fun _ _ => 1⟩ z0 u p = .ok out → ∃ tr,
      g.integrate exFresh idealRoot ⟨1, 1, fun _ _ => 1⟩ z0 u p = .ok (out, tr) ∧
      ∀ τ, 0 ≤ τ → τ ≤ nd t (t.length - 1) → ∃ V, tr.call [τ] = .ok V ∧
        |V.e 0 0 - Real.exp (-τ)| ≤ C * ((Real.exp (2 * τ) * (5 * τ) + 2) * H) := by
  obtain ⟨C, hC, h99⟩ := C99_integrate ([1 / 2] : List ℝ) (by simp) (by simp)
    (by intro k hk; obtain rfl : k = 0 := (by simpa using hk); norm_num [nd])
  refine ⟨2 * C + 1, by positivity, fun freshI hI t H two hH h0 ht => ?_⟩
  obtain ⟨F, pre⟩ := loop_pre freshI hI t [1 / 2] two (by simp)
  obtain ⟨T, hT, hA, hB, -⟩ := C09_butcher_consistent ([1 / 2] : List ℝ) (by simp) (by simp)
  obtain ⟨T', hT', -, -, -, hc, -⟩ := C08_butcher_exact ([1 / 2] : List ℝ) (by simp)
  rw [hT] at hT'
  cases hT'
  have hA0 : T.A.e [0, 0] = 1 / 2 := by
    have := hA 0 (by simp)
    rw [hc 0 (by simp)] at this
    simpa using this
  have hB0 : T.b.e [0] = 1 := by simpa using hB
  have hH0 : 0 ≤ H := by
    have := ht 0 (by omega)
    linarith [this.1, this.2]
  have hpos : ∀ n ≤ t.length - 1, 0 ≤ nd t n := by
    intro n
    induction n with
    | zero => intro _; exact h0.ge
    | succ n ih => intro hn; exact (ih (by omega)).trans (ht n (by omega)).1.le
  obtain ⟨g, hg, h⟩ := h99 exFresh freshI _ _ _ _ _ _ _ _ _ _ _ idealCsFunction_spec pre (by constructor <;> decide) (.inl rfl) 1 1 (1 / 2)
    (loop_index freshI).1 T hT (1 / 2) 1 H (by
      intro j hj
      change j < 1 at hj
      obtain rfl : j = 0 := by omega
      show ∑ k ∈ Finset.range 1, _ ≤ _
      rw [Finset.sum_range_one, hA0]
      norm_num) (by
      show ∑ k ∈ Finset.range 1, _ ≤ _
      rw [Finset.sum_range_one, hB0, abs_one]) ht (by norm_num) (by linarith) idealRoot idealRoot_spec
  refine ⟨g, hg, fun z0 u p out hout => ?_⟩
  obtain ⟨ex, sm, bd⟩ := decay_exact freshI t 1 u.e (fun i => p.e i 0) (fun n hn => ⟨hpos n (by omega), (ht n (by omega)).1⟩)
  obtain ⟨tr, dtr, htr, -, key⟩ := h _ z0 u p out hout (fun _ τ => Real.exp (-τ)) (fun _ _ τ => -Real.exp (-τ)) (fun _ _ τ => Real.exp (-τ))
    ⟨fun n hn i hi => ex.deriv n hn i hi, fun n _ τ _ e h => (loop_zero freshI e).mpr (by
      have h1 := h.xdot 0 Nat.one_pos
      have h2 := h.x 0 Nat.one_pos
      have h3 := h.z 0 Nat.one_pos
      simp only [loopD, MXExpr.sym] at h1 h2 h3
      rw [h1, h2, h3]
      exact ⟨rfl, rfl⟩)⟩ 1 zero_le_one (fun n hn i _ => sm n hn) (fun n hn i _ => bd n hn) 0 le_rfl (by
      intro i hi
      rw [h0]
      simp)
  refine ⟨tr, htr, fun τ hτ0 hτ1 => ?_⟩
  obtain ⟨V, DV, hV, -, -, -, -, -, hv⟩ := key [τ] (by simp)
  refine ⟨V, hV, ?_⟩
  have k := (hv 0 (by simp) (by rw [h0]; exact hτ0) hτ1 0 Nat.one_pos).1
  have e0 : nd [τ] 0 = τ := rfl
  have e1 : (((1 : ℕ) - 1).factorial : ℝ) = 1 := by simp
  simp only [e0, h0, sub_zero, zero_add, List.length_singleton, e1, pow_one, one_mul, div_one, mul_one] at k
  have e2 : (1 : ℝ) / (1 - 1 / 2) = 2 := by norm_num
  rw [e2] at k
  refine k.trans ?_
  have hE := Real.exp_pos (2 * τ)
  have hEτ : 0 ≤ Real.exp (2 * τ) * τ * H := by positivity
  have q1 : Real.exp (2 * τ) * (τ * ((1 + 1 + 2 * H * (1 + 1 / 2)) * H)) ≤ Real.exp (2 * τ) * (5 * τ) * H := by
    have : 2 + 3 * H ≤ 5 := by linarith
    nlinarith [mul_le_mul_of_nonneg_left this hEτ]
  have q2 : H * (1 + 1 / 2) * H ≤ 2 * H := by nlinarith
  have q3 : (Real.exp (2 * τ) * (τ * ((1 + 1 + 2 * H * (1 + 1 / 2)) * H)) + H * (1 + 1 / 2) * H) / (1 - 1 / 2) ≤
      2 * ((Real.exp (2 * τ) * (5 * τ) + 2) * H) := by
    rw [div_le_iff₀ (by norm_num)]
    linarith
  have q4 := mul_le_mul_of_nonneg_left q3 hC
  have q5 : H ^ (1 + 1) ≤ (Real.exp (2 * τ) * (5 * τ) + 2) * H := by
    have a1 : 0 ≤ Real.exp (2 * τ) * (5 * τ) * H := by positivity
    have a2 : H * H ≤ 1 * H := mul_le_mul_of_nonneg_right hH hH0
    rw [pow_succ, pow_one]
    linarith
  linarith

end CE
