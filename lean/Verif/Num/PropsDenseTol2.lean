import Verif.Num.PropsDenseTol
import Verif.Num.PropsContract2

/-!
# Property C110: accuracy of the trajectory of `integrate` for contractive models, when the root finder stops at a tolerance

`C110_tolerance` needs steps that are short in comparison with the Lipschitz constant of the model.  Here the nodes are those of Gauss or Radau
and the model is a contractive ordinary differential equation, and the steps have any length.
-/

open Polynomial Set

namespace CE

/-- **C110** (contractive models) Gauss or Radau nodes and a positive definite form determine a constant such that for every ordinary
differential equation that is contractive with respect to the form, every increasing grid and every root finder that solves the equations up to
`tol`: in interval `n` the distance of the trajectory that `integrate` returns from the exact solution is at most the constant times
`e0 + B*(t-t0)*H^M + B*H^(M+1) + (t_{n+1}-t0+n+1)*tol`, and that of its derivative at most this divided by the length of the interval. -/
theorem C110_contractive (tau : List ℝ) (hnode : IsGauss tau ∨ IsRadau tau) (S : ℕ → ℕ → ℝ) (m : ℕ) (hpd : PosDefForm S m) :
    ∃ C ≥ 0, ∀ (fresh freshI : String → ℕ) (casadiPoints : ℕ → String → Except PyErr (List ℝ))
      (csFunction : List (MXExpr ℝ) → List (MXExpr ℝ) → Except PyErr (CsFn ℝ))
      (dae : DaeObj ℝ) (t : List ℝ) (order : ℕ) (method : String) (tdp_fun : Option (ℝ → Mat ℝ))
      (d : DaeObj ℝ) (xdot res ode : MXExpr ℝ) (F : CsFn ℝ), IsCsFunction csFunction →
      SchemePre freshI casadiPoints csFunction dae t order method tdp_fun d xdot res tau F →
      DistinctSyms fresh → dae.np = 0 ∨ dae.nq = 0 → d.nx = m → ContractiveOde d xdot res ode S → LocLipschitzDae d xdot res →
      ∀ H, (∀ n < t.length - 1, nd t n < nd t (n + 1) ∧ nd t (n + 1) - nd t n ≤ H) →
      ∀ (rootfinder : (List ℝ → List ℝ) → List ℝ → Except PyErr (List ℝ)) (tol : ℝ), 0 ≤ tol →
      (∀ f w0 sol, rootfinder f w0 = .ok sol → ∀ v ∈ f sol, |v| ≤ tol) →
      ∃ g, Integrator.new fresh freshI casadiPoints csFunction dae t order method tdp_fun = .ok g ∧
      ∀ x0 z0 u p out, g.call rootfinder x0 z0 u p = .ok out →
      ∀ (y : ℕ → ℝ → ℝ) (f ζ : ℕ → ℕ → ℝ → ℝ), ExactDae d xdot res tdp_fun t u.e (fun i => p.e i 0) y f ζ →
      ∀ B, 0 ≤ B → (∀ n < t.length - 1, ∀ i < m, ContDiffOn ℝ order (f n i) (Icc (nd t n) (nd t (n + 1)))) →
      (∀ n < t.length - 1, ∀ i < m, ∀ τ ∈ Icc (nd t n) (nd t (n + 1)),
        |iteratedDerivWithin order (f n i) (Icc (nd t n) (nd t (n + 1))) τ| ≤ B) →
      ∀ ε, 0 ≤ ε → (∀ i < m, |x0.e i 0 - y i (nd t 0)| ≤ ε) →
      let bound := fun n : ℕ => C * (ε + B * (nd t n - nd t 0) * H ^ order + B * H ^ (order + 1) + (nd t (n + 1) - nd t 0 + n + 1) * tol)
      ∃ tr dtr, g.integrate fresh rootfinder x0 z0 u p = .ok (out, tr) ∧ tr.derivative = .ok dtr ∧ ∀ ts : List ℝ, ts ≠ [] →
        ∃ V DV, tr.call ts = .ok V ∧ dtr.call ts = .ok DV ∧ V.rows = m ∧ V.cols = ts.length ∧ DV.rows = m ∧ DV.cols = ts.length ∧
        ∀ k < ts.length, ∀ n < t.length - 1, nd ts k ∈ Icc (nd t n) (nd t (n + 1)) → (nd ts k < nd t (n + 1) ∨ n + 1 = t.length - 1) →
          ∀ i < m, |V.e i k - y i (nd ts k)| ≤ bound n ∧
            (nd t (n + 1) - nd t n) * |DV.e i k - f n i (nd ts k)| ≤ bound n := by
  obtain ⟨hd, hin01, -⟩ := C94_inside tau hnode
  have hz : 0 ∉ tau := fun h => lt_irrefl _ (hin01 0 h).1
  have h01 : ∀ k < tau.length, nd tau k ∈ Icc (0 : ℝ) 1 := by
    intro k hk
    have := hin01 (nd tau k) (by rw [nd_eq_getElem hk]; exact List.getElem_mem hk)
    exact ⟨this.1.le, this.2⟩
  obtain ⟨C₀, hC₀, htraj⟩ := C99_trajectory tau hd hz h01
  obtain ⟨C₁, hC₁, h96⟩ := C96_components tau hnode S m hpd
  obtain ⟨C₂, hC₂, h97⟩ := C97_contractive tau hnode S m hpd
  obtain ⟨c, hc, hmax⟩ := qnorm_le_max S m
  obtain ⟨c', hc', hmin⟩ := max_le_qnorm S m hpd
  -- the constant for the states at the grid points and the collocation points
  set D := C₁ + c' * (c + C₂ + C₂ * c) with hD
  have hD0 : 0 ≤ D := by positivity
  refine ⟨C₀ * D + 1, by positivity, fun fresh freshI casadiPoints csFunction dae t order method tdp_fun d xdot res ode F hcs pre hfr hpq hm con
    lip H ht rootfinder tol htol hrf => ?_⟩
  obtain ⟨g, hg, hs, hcall⟩ := integrator_env_tol fresh freshI casadiPoints csFunction dae t order method tdp_fun d xdot res tau F pre hfr hpq
    rootfinder tol hrf
  refine ⟨g, hg, fun x0 z0 u p out hout y f ζ hex B hB0 hsm hB ε hε h0 => ?_⟩
  obtain ⟨env, heq, hu, hp, hx0, hox, hoK, -, -, hint⟩ := hcall x0 z0 u p out hout
  intro bound
  generalize g.scheme = s at *
  have b := pre.built hs
  have hN := b.N_eq
  have hM := b.M_eq
  have htwo := pre.two
  have law := con.contractive' pre.wf.res_cols
  have hasc : Ascending t := fun n hn => (ht n (by omega)).1
  have hf : [fresh "x", fresh "K", fresh "Z", fresh "u", fresh "P"].Nodup := by
    simp [hfr.xK, hfr.xZ, hfr.xu, hfr.xP, hfr.KZ, hfr.Ku, hfr.KP, hfr.Zu, hfr.ZP, hfr.uP]
  have hH : 0 ≤ H := by
    have := ht 0 (by omega)
    linarith [this.1, this.2]
  -- the exact solution of the equations for the same inputs, from `x0`
  obtain ⟨env', heq', hx', hu', hp'⟩ := C98_exists fresh freshI casadiPoints csFunction dae t order method tdp_fun d xdot res tau F false s
    hcs pre hs hf lip hnode S (hm ▸ hpd) law (by rw [hN]; exact fun n hn => (ht n hn).1) env (fun h => by cases h) (fun i => x0.e i 0)
  have hu'' : s.u.val env' = u.e := by
    rw [← hu]
    funext i n
    exact hu' i n
  have hp'' : s.p.val env' = p.e := by
    rw [← hp]
    funext i n
    exact hp' i n
  obtain ⟨a1, a2⟩ := h97 fresh freshI casadiPoints csFunction dae t order method tdp_fun d xdot res ode F false s hcs pre hs hm con
    (by rw [hN]; exact fun n hn => (ht n hn).1) env env' tol 0 htol le_rfl heq
    (fun v hv => by rw [heq' v hv, abs_zero]) (fun n _ i _ => (hu' i n).symm) (fun n _ i _ => (hp' i n).symm)
  obtain ⟨c1, c2⟩ := h96 fresh freshI casadiPoints csFunction dae t order method tdp_fun d xdot res F false s hcs pre hs hf hm law H
    (by rw [hN]; exact ht) env' heq' y f ζ (by rw [hu'', hp'']; exact hex) B hB0 (by rw [hN, hM]; exact hsm)
    (by rw [hN, hM]; exact hB) ε hε (fun i hi => by rw [hx' i]; exact h0 i hi)
  have hi0 := hmax (fun i => s.x.val env i 0 - s.x.val env' i 0) tol htol (fun i hi => by
    rw [hx' i]
    exact hx0 i (by omega))
  rw [hN] at a1 c1
  rw [hN, hM] at a2 c2
  rw [hM] at c1
  rw [add_zero] at a1 a2
  have hmono : ∀ n ≤ t.length - 1, 0 ≤ nd t n - nd t 0 := by
    intro n
    induction n with
    | zero => intro _; simp
    | succ n ih =>
      intro hn
      have := (ht n hn).1
      have := ih (by omega)
      linarith
  let E := fun n : ℕ => ε + B * (nd t n - nd t 0) * H ^ order + B * H ^ (order + 1) + (nd t (n + 1) - nd t 0 + n + 1) * tol
  have tri : ∀ a b c r₁ r₂ r : ℝ, |a - b| ≤ r₁ → |b - c| ≤ r₂ → r₁ + r₂ ≤ r → |a - c| ≤ r := by
    intro a b c r₁ r₂ r h1 h2 h3
    rw [show a - c = (a - b) + (b - c) by ring]
    exact (abs_add_le _ _).trans ((add_le_add h1 h2).trans h3)
  have both : ∀ n < t.length - 1, (∀ i < m, |s.x.val env i n - y i (nd t n)| ≤ D * E n) ∧
      ∀ j < order, ∀ i < m, |s.X.val env i (n * order + j) - y i (nd s.tc (n * order + j))| ≤ D * E n := by
    intro n hn
    have g0 := hmono n hn.le
    have g1 := (ht n hn).1
    have q0 : (0 : ℝ) ≤ n := Nat.cast_nonneg n
    set A := ε + B * (nd t n - nd t 0) * H ^ order with hA
    have hA0 : 0 ≤ A := by positivity
    set P := B * H ^ (order + 1) with hP
    have hP0 : 0 ≤ P := by positivity
    set R := (nd t (n + 1) - nd t 0 + n) * tol with hR
    have hR0 : 0 ≤ R := mul_nonneg (by linarith) htol
    have hR1 : (nd t n - nd t 0 + n) * tol ≤ R := mul_le_mul_of_nonneg_right (by linarith) htol
    have hEn : E n = A + P + R + tol := by
      simp only [E, hA, hP, hR]
      ring
    rw [hEn, hD]
    have q1 : 0 ≤ c' * (c + C₂ + C₂ * c) * (A + P) := by positivity
    have q2 : 0 ≤ C₁ * (R + tol) := by positivity
    have q3 : 0 ≤ c' * (c + C₂ * c) * R := by positivity
    have q4 : 0 ≤ c' * (C₂ + C₂ * c) * tol := by positivity
    have q5 : 0 ≤ C₁ * P := by positivity
    have q6 : 0 ≤ c' * (c + C₂) * tol := by positivity
    constructor
    · intro i hi
      have g2 := hmin (fun i => s.x.val env i n - s.x.val env' i n) i hi
      have g3 := mul_le_mul_of_nonneg_left ((a1 n hn.le).trans (add_le_add hi0 (mul_le_mul_of_nonneg_left hR1 hC₂))) hc'
      refine tri _ _ _ _ _ _ (g2.trans g3) (c1 n hn.le i hi) ?_
      linarith
    · intro j hj i hi
      have g2 := hmin (fun i => s.X.val env i (n * order + j) - s.X.val env' i (n * order + j)) i hi
      have g3 := mul_le_mul_of_nonneg_left ((a2 n hn j hj).trans (mul_le_mul_of_nonneg_left (add_le_add hi0 le_rfl) hC₂)) hc'
      refine tri _ _ _ _ _ _ (g2.trans g3) (c2 n hn j hj i hi) ?_
      linarith
  obtain ⟨pp, dpp, hpp, hdpp, hts⟩ := htraj fresh freshI casadiPoints csFunction dae t order method tdp_fun d xdot res F false s pre hs hasc
    hfr.xK out.x out.Kd env (by rw [hox, b.x, hN]; exact ⟨pre.wf.nx.symm, rfl⟩) (by rw [hoK, b.Kd, hN, hM]; exact ⟨pre.wf.nx.symm, rfl⟩)
    (fun i n => by rw [hox]; rfl) (fun i c => by rw [hoK]; rfl) y f B hB0 (by rw [hN]; exact hex.deriv) (by rw [hN, hM, hm]; exact hsm)
    (by rw [hN, hM, hm]; exact hB)
  refine ⟨pp, dpp, by rw [hint, hpp]; rfl, hdpp, fun ts hne => ?_⟩
  obtain ⟨V, DV, hV, hDV, r1, r2, r3, r4, hb⟩ := hts ts hne
  rw [hm] at r1 r3
  refine ⟨V, DV, hV, hDV, r1, r2, r3, r4, fun k hk n hn hin hside i hi => ?_⟩
  rw [hN, hM] at hb
  obtain ⟨b1, b2⟩ := both n hn
  have := (hb k hk n hn hin hside i (by omega)).1 (D * E n) (by
    rw [show out.x.e i n = s.x.val env i n by rw [hox]; rfl]
    exact b1 i hi) (fun j hj => b2 j hj i hi)
  have hst : B * (nd t (n + 1) - nd t n) ^ (order + 1) ≤ B * H ^ (order + 1) :=
    mul_le_mul_of_nonneg_left (pow_le_pow_left₀ (by linarith [(ht n hn).1]) (ht n hn).2 _) hB0
  have hlast : C₀ * (D * E n) + B * (nd t (n + 1) - nd t n) ^ (order + 1) ≤ bound n := by
    have g0 := hmono n hn.le
    have g1 := hmono (n + 1) hn
    have q0 : (0 : ℝ) ≤ n := Nat.cast_nonneg n
    have q1 : 0 ≤ ε + B * (nd t n - nd t 0) * H ^ order := by positivity
    have q2 : 0 ≤ (nd t (n + 1) - nd t 0 + n + 1) * tol := by positivity
    have e : bound n = C₀ * (D * E n) + E n := by
      simp only [bound, E]
      ring
    rw [e]
    simp only [E]
    linarith
  exact ⟨this.1.trans hlast, this.2.trans hlast⟩

/-! ## Non-vacuity -/

/-- One constant for all `λ >= 0`: for `x' = cos(t) - λ*(x - sin(t))` from `0`, with a root finder that solves the equations up to `tol`, the
trajectory differs from `sin(t)` in interval `n` at most by the constant times `t_n*H^M + H^(M+1) + (t_{n+1}+n+1)*tol`. -/
example (tau : List ℝ) (hnode : IsGauss tau ∨ IsRadau tau) (hpos : 0 < tau.length) (freshI : String → ℕ) (hI : 7 ≤ freshI "xdot") :
    ∃ C ≥ 0, ∀ (l : ℝ) (t : List ℝ) (H : ℝ), 0 ≤ l → 2 ≤ t.length → nd t 0 = 0 →
      (∀ n < t.length - 1, nd t n < nd t (n + 1) ∧ nd t (n + 1) - nd t n ≤ H) →
      ∀ (rootfinder : (List ℝ → List ℝ) → List ℝ → Except PyErr (List ℝ)) (tol : ℝ), 0 ≤ tol →
      (∀ f w0 sol, rootfinder f w0 = .ok sol → ∀ v ∈ f sol, |v| ≤ tol) → ∃ g,
      Integrator.new exFresh freshI (fun _ _ => .ok tau) idealCsFunction (stiffO l) t tau.length "legendre" none = .ok g ∧
      ∀ z0 u p out, g.call rootfinder ⟨1, 1, fun _ _ => 0⟩ z0 u p = .ok out →
        ∃ tr, g.integrate exFresh rootfinder ⟨1, 1, fun _ _ => 0⟩ z0 u p = .ok (out, tr) ∧
        ∀ n < t.length - 1, ∀ τ, nd t n ≤ τ → τ < nd t (n + 1) → ∃ V, tr.call [τ] = .ok V ∧
          |V.e 0 0 - Real.sin τ| ≤ C * (nd t n * H ^ tau.length + H ^ (tau.length + 1) + (nd t (n + 1) + n + 1) * tol) := by
  have hq : PosDefForm (fun _ _ => 1) 1 := by
    rintro v ⟨i, hi, hv⟩
    obtain rfl : i = 0 := by omega
    show 0 < ∑ i ∈ Finset.range 1, ∑ j ∈ Finset.range 1, _
    simp only [Finset.sum_range_one, one_mul]
    exact mul_self_pos.mpr hv
  obtain ⟨C, hC, h110⟩ := C110_contractive tau hnode (fun _ _ => 1) 1 hq
  refine ⟨C, hC, fun l t H hl two h0 ht rootfinder tol htol hrf => ?_⟩
  obtain ⟨F, pre⟩ := stiff_pre l freshI hI t tau two hpos
  obtain ⟨g, hg, h⟩ := h110 exFresh freshI _ _ _ _ _ _ _ _ _ _ _ _ idealCsFunction_spec pre (by constructor <;> decide) (.inl rfl) rfl
    (stiff_contractiveOde l hl freshI) (stiff_locLipschitz l hl freshI) H ht rootfinder tol htol hrf
  refine ⟨g, hg, fun z0 u p out hout => ?_⟩
  obtain ⟨tr, dtr, htr, -, key⟩ := h _ z0 u p out hout (fun _ τ => Real.sin τ) (fun _ _ τ => Real.cos τ) (fun _ _ _ => 0)
    ⟨fun n _ i _ τ _ => (Real.hasDerivAt_sin τ).hasDerivWithinAt, fun n _ τ _ e h => (stiff_zero l freshI e).mpr (by
      have h1 := h.xdot 0 Nat.one_pos
      have h2 := h.x 0 Nat.one_pos
      have h3 := h.t
      simp only [stiffD, MXExpr.sym] at h1 h2 h3
      rw [h1, h2, h3]
      ring)⟩ 1 zero_le_one (fun n _ i _ => Real.contDiff_cos.contDiffOn) (fun n hn i _ τ hτ => by
        rw [iteratedDerivWithin_eq_iteratedDeriv (uniqueDiffOn_Icc (ht n hn).1) Real.contDiff_cos.contDiffAt hτ]
        exact (abs_iteratedDeriv_trig _ τ).2) 0 le_rfl (fun i hi => by
        rw [h0, Real.sin_zero, sub_self, abs_zero])
  refine ⟨tr, htr, fun n hn τ hτ0 hτ1 => ?_⟩
  obtain ⟨V, DV, hV, -, -, -, -, -, hv⟩ := key [τ] (by simp)
  refine ⟨V, hV, ?_⟩
  have := (hv 0 (by simp) n hn ⟨hτ0, hτ1.le⟩ (.inl hτ1) 0 Nat.one_pos).1
  rw [h0] at this
  simp only [sub_zero, zero_add, one_mul] at this
  exact this

end CE
