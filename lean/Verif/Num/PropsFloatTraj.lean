import Verif.Num.PropsFloat4
import Verif.Num.PropsDenseTol2
import Verif.Num.PropsSens

/-!
# Property C115: total error of the trajectory of `integrate` for contractive models

With C110_contractive instead of C110_tolerance: Gauss or Radau nodes, contractive ordinary differential equations, steps of any length.
-/

open Polynomial Set

namespace CE

namespace Flt

/-- **C115** (contractive models) For the models, grids and root finders of `C110_contractive`, and the trajectory that `integrate` returns, with
coefficients that carry errors of at most `η`, in floating point: the computed values differ from the exact solution at most by the bound of
`C110_contractive` (discretisation and tolerance) plus `Λ*η` plus the rounding errors of the evaluation. -/
theorem C115_contractive (tau : List ℝ) (hnode : IsGauss tau ∨ IsRadau tau) (S : ℕ → ℕ → ℝ) (m : ℕ) (hpd : PosDefForm S m)
    (Λ Λ' : ℝ) (hΛ : ∀ x, 0 ≤ x → x ≤ 1 →
      ∑ j ∈ Finset.range (tau.length + 1), |(Lagrange.basis (Finset.range (tau.length + 1)) (nd (0 :: tau)) j).eval x| ≤ Λ)
    (hΛ' : ∀ x, 0 ≤ x → x ≤ 1 →
      ∑ j ∈ Finset.range (tau.length + 1), |(derivative (Lagrange.basis (Finset.range (tau.length + 1)) (nd (0 :: tau)) j)).eval x| ≤ Λ') :
    ∃ C ≥ 0, ∀ (fresh freshI : String → ℕ) (casadiPoints : ℕ → String → Except PyErr (List ℝ))
      (csFunction : List (MXExpr ℝ) → List (MXExpr ℝ) → Except PyErr (CsFn ℝ))
      (dae : DaeObj ℝ) (t : List ℝ) (order : ℕ) (method : String) (tdp_fun : Option (ℝ → Mat ℝ))
      (d : DaeObj ℝ) (xdot res ode : MXExpr ℝ) (F : CsFn ℝ), IsCsFunction csFunction →
      SchemePre freshI casadiPoints csFunction dae t order method tdp_fun d xdot res tau F →
      DistinctSyms fresh → dae.np = 0 ∨ dae.nq = 0 → d.nx = m → ContractiveOde d xdot res ode S → LocLipschitzDae d xdot res →
      ∀ H, (∀ n < t.length - 1, nd t n < nd t (n + 1) ∧ nd t (n + 1) - nd t n ≤ H) →
      ∀ (rootfinder : (List ℝ → List ℝ) → List ℝ → Except PyErr (List ℝ)) (tol : ℝ), 0 ≤ tol →
      (∀ f w0 sol, rootfinder f w0 = .ok sol → ∀ v ∈ f sol, |v| ≤ tol) →
      ∃ g, Integrator.new fresh freshI casadiPoints csFunction dae t order method tdp_fun = .ok g ∧
      ∀ x0 z0 u p out, g.call rootfinder x0 z0 u p = .ok out →
      ∀ (y : ℕ → ℝ → ℝ) (f ζ : ℕ → ℕ → ℝ → ℝ), ExactDae d xdot res tdp_fun t u.e (fun i => p.e i 0) y f ζ →
      ∀ B, 0 ≤ B → (∀ n < t.length - 1, ∀ i < m, ContDiffOn ℝ order (f n i) (Icc (nd t n) (nd t (n + 1)))) →
      (∀ n < t.length - 1, ∀ i < m, ∀ τ ∈ Icc (nd t n) (nd t (n + 1)),
        |iteratedDerivWithin order (f n i) (Icc (nd t n) (nd t (n + 1))) τ| ≤ B) →
      ∀ ε, 0 ≤ ε → (∀ i < m, |x0.e i 0 - y i (nd t 0)| ≤ ε) →
      let bound := fun n : ℕ => C * (ε + B * (nd t n - nd t 0) * H ^ order + B * H ^ (order + 1) + (nd t (n + 1) - nd t 0 + n + 1) * tol)
      ∃ tr, g.integrate fresh rootfinder x0 z0 u p = .ok (out, tr) ∧
        ∀ (fl : Flt) (tr' : Piecewise) (η : ℝ), fl.Near (0 :: tau) tr tr' η →
        (1 / (1 - fl.u) ^ (3 * (tau.length + 1) + 1) - 1) * Λ < 1 → ∀ ts : List ℝ, ts ≠ [] →
        ∃ V, fl.call tr' ts "right" = .ok V ∧ V.rows = m ∧ V.cols = ts.length ∧
        ∀ k < ts.length, ∀ n < t.length - 1, nd ts k ∈ Icc (nd t n) (nd t (n + 1)) → (nd ts k < nd t (n + 1) ∨ n + 1 = t.length - 1) →
          ∀ c', tr'.coefficients[n]? = some c' → ∀ i < m, ∀ Y, (∀ j < tau.length + 1, |c'.e i j| ≤ Y) →
          let E := (1 / (1 - fl.u) ^ (3 * (tau.length + 1) + 1) - 1) * Λ
          |V.e i k - y i (nd ts k)| ≤ bound n + (Λ * η +
            (1 / (1 - fl.u) ^ (tau.length + 1) * (1 + 2 * E / (1 - E)) - 1) * (Y * Λ) + (1 / (1 - fl.u) ^ 3 - 1) * (Y * Λ')) := by
  obtain ⟨hd, hin01, -⟩ := C94_inside tau hnode
  have hz : 0 ∉ tau := fun h => lt_irrefl _ (hin01 0 h).1
  obtain ⟨C, hC, h110⟩ := C110_contractive tau hnode S m hpd
  refine ⟨C, hC, fun fresh freshI casadiPoints csFunction dae t order method tdp_fun d xdot res ode F hcs pre hfr hpq hm con lip H ht
    rootfinder tol htol hrf => ?_⟩
  obtain ⟨g, hg, hmain⟩ := h110 fresh freshI casadiPoints csFunction dae t order method tdp_fun d xdot res ode F hcs pre hfr hpq hm con lip H ht
    rootfinder tol htol hrf
  obtain ⟨g', hg', hs, hcall⟩ := integrator_env_tol fresh freshI casadiPoints csFunction dae t order method tdp_fun d xdot res tau F pre hfr hpq
    rootfinder tol hrf
  rw [hg] at hg'
  cases hg'
  subst hm
  refine ⟨g, hg, fun x0 z0 u p out hout y f ζ hex B hB0 hsm hB ε hε h0 => ?_⟩
  obtain ⟨env, -, -, -, -, hox, hoK, -, -, hint⟩ := hcall x0 z0 u p out hout
  intro bound
  obtain ⟨tr, dtr, htr, -, hts⟩ := hmain x0 z0 u p out hout y f ζ hex B hB0 hsm hB ε hε h0
  have b := pre.built hs
  obtain ⟨pp, hpp, hpi, w, -⟩ := piecewisePolyX_pieces fresh freshI casadiPoints csFunction dae t order method tdp_fun d xdot res tau F false
    g.scheme pre hs hd hz (fun n hn => (ht n (by omega)).1) hfr.xK out.x out.Kd
    (by rw [hox, b.x, b.N_eq]; exact ⟨pre.wf.nx.symm, rfl⟩) (by rw [hoK, b.Kd, b.N_eq, b.M_eq]; exact ⟨pre.wf.nx.symm, rfl⟩)
  rw [hpp] at hint
  rw [htr] at hint
  obtain rfl : tr = pp := congrArg Prod.snd (Except.ok.inj hint)
  refine ⟨tr, htr, fun fl tr' η hnear hE ts hne => ?_⟩
  obtain ⟨V, V', hV, hV', r1, r2, hv⟩ := C115_evaluation tr tr' (0 :: tau) d.nx w η hnear Λ Λ' hΛ hΛ' hE "right" .right rfl ts hne
  obtain ⟨V₀, _, hV₀, -, -, -, -, -, hb⟩ := hts ts hne
  have hVV : V₀ = V := Except.ok.inj (hV₀.symm.trans hV)
  subst hVV
  refine ⟨V', hV', r1, r2, fun k hk n hn hin hside c' hc' i hi Y hY => ?_⟩
  intro E
  rw [hpi] at hv
  have q1 := (hb k hk n hn hin hside i hi).1
  have q2 := hv k hk n ⟨by omega, .inr hin.1, by
    rcases hside with h | h
    · exact .inr h
    · exact .inl (by omega)⟩ hin.1 hin.2 c' hc' i hi Y hY
  have q3 := abs_sub_le (V'.e i k) (V₀.e i k) (y i (nd ts k))
  refine q3.trans ?_
  rw [add_comm]
  exact add_le_add q1 q2

/-! ## Non-vacuity -/

/-- With doubles and the midpoint rule, one constant for all `λ >= 0`: for `x' = cos(t) - λ*(x - sin(t))` from `0`, with a root finder that solves
the equations up to `tol` and coefficients that carry errors of at most `η` and are bounded by `Y`, the computed values of the trajectory differ
from `sin(t)` in interval `n` at most by the constant times `t_n*H + H^2 + (t_{n+1}+n+1)*tol`, plus `3*η + 200*2^-53*Y`. -/
example (freshI : String → ℕ) (hI : 7 ≤ freshI "xdot") :
    ∃ C ≥ 0, ∀ (l : ℝ) (t : List ℝ) (H : ℝ), 0 ≤ l → 2 ≤ t.length → nd t 0 = 0 →
      (∀ n < t.length - 1, nd t n < nd t (n + 1) ∧ nd t (n + 1) - nd t n ≤ H) →
      ∀ (rootfinder : (List ℝ → List ℝ) → List ℝ → Except PyErr (List ℝ)) (tol : ℝ), 0 ≤ tol →
      (∀ f w0 sol, rootfinder f w0 = .ok sol → ∀ v ∈ f sol, |v| ≤ tol) → ∃ g,
      Integrator.new exFresh freshI (fun _ _ => .ok [1 / 2]) idealCsFunction (stiffO l) t 1 "legendre" none = .ok g ∧
      ∀ z0 u p out, g.call rootfinder ⟨1, 1, fun _ _ => 0⟩ z0 u p = .ok out →
        ∃ tr, g.integrate exFresh rootfinder ⟨1, 1, fun _ _ => 0⟩ z0 u p = .ok (out, tr) ∧
        ∀ tr' η, double.Near [0, 1 / 2] tr tr' η → ∀ n < t.length - 1, ∀ c', tr'.coefficients[n]? = some c' →
          ∀ Y, (∀ j < 2, |c'.e 0 j| ≤ Y) → ∀ τ, nd t n ≤ τ → τ < nd t (n + 1) → ∃ V, double.call tr' [τ] "right" = .ok V ∧
          |V.e 0 0 - Real.sin τ| ≤ C * (nd t n * H + H ^ 2 + (nd t (n + 1) + n + 1) * tol) + (3 * η + 200 / 2 ^ 53 * Y) := by
  have e0 : (Lagrange.basis (Finset.range 2) (nd [(0 : ℝ), 1 / 2]) 0) = C (-2) * X + C 1 := by
    simp only [Lagrange.basis, Lagrange.basisDivisor, show (Finset.range 2).erase 0 = {1} by decide, Finset.prod_singleton]
    rw [show nd [(0 : ℝ), 1 / 2] 0 = 0 from rfl, show nd [(0 : ℝ), 1 / 2] 1 = 1 / 2 from rfl, mul_sub, ← C_mul,
      show ((0 : ℝ) - 1 / 2)⁻¹ = -2 by norm_num, show (-2 : ℝ) * (1 / 2) = -1 by norm_num, C_neg, C_neg, sub_neg_eq_add]
  have e1 : (Lagrange.basis (Finset.range 2) (nd [(0 : ℝ), 1 / 2]) 1) = C 2 * X := by
    simp [Lagrange.basis, Lagrange.basisDivisor, show (Finset.range 2).erase 1 = {0} by decide, nd]
  have hq : PosDefForm (fun _ _ => 1) 1 := by
    rintro v ⟨i, hi, hv⟩
    obtain rfl : i = 0 := by omega
    show 0 < ∑ i ∈ Finset.range 1, ∑ j ∈ Finset.range 1, _
    simp only [Finset.sum_range_one, one_mul]
    exact mul_self_pos.mpr hv
  obtain ⟨K, hK, h115⟩ := C115_contractive ([1 / 2] : List ℝ) (.inl isGauss_midpoint_real) (fun _ _ => 1) 1 hq 3 4 (by
      intro x hx0 hx1
      simp only [List.length_cons, List.length_nil, zero_add, Nat.reduceAdd, Finset.sum_range_succ, Finset.sum_range_zero, e0, e1, eval_add,
        eval_mul, eval_C, eval_X]
      rcases abs_cases (-2 * x + 1) with ⟨h, -⟩ | ⟨h, -⟩ <;> rw [h, abs_of_nonneg (by linarith : 0 ≤ 2 * x)] <;> linarith) (by
      intro x hx0 hx1
      simp only [List.length_cons, List.length_nil, zero_add, Nat.reduceAdd, Finset.sum_range_succ, Finset.sum_range_zero, e0, e1]
      simp
      norm_num)
  refine ⟨K, hK, fun l t H hl two h0 ht rootfinder tol htol hrf => ?_⟩
  obtain ⟨F, pre⟩ := stiff_pre l freshI hI t [1 / 2] two (by simp)
  obtain ⟨g, hg, h⟩ := h115 exFresh freshI _ _ _ _ _ _ _ _ _ _ _ _ idealCsFunction_spec pre (by constructor <;> decide) (.inl rfl) rfl
    (stiff_contractiveOde l hl freshI) (stiff_locLipschitz l hl freshI) H ht rootfinder tol htol hrf
  refine ⟨g, hg, fun z0 u p out hout => ?_⟩
  obtain ⟨tr, htr, key⟩ := h _ z0 u p out hout (fun _ τ => Real.sin τ) (fun _ _ τ => Real.cos τ) (fun _ _ _ => 0)
    ⟨fun n _ i _ τ _ => (Real.hasDerivAt_sin τ).hasDerivWithinAt, fun n _ τ _ e h => (stiff_zero l freshI e).mpr (by
      have h1 := h.xdot 0 Nat.one_pos
      have h2 := h.x 0 Nat.one_pos
      have h3 := h.t
      simp only [stiffD, MXExpr.sym] at h1 h2 h3
      rw [h1, h2, h3]
      ring)⟩ 1 zero_le_one (fun n _ i _ => Real.contDiff_cos.contDiffOn) (fun n hn i _ τ hτ => by
        rw [iteratedDerivWithin_eq_iteratedDeriv (uniqueDiffOn_Icc (ht n hn).1) Real.contDiff_cos.contDiffAt hτ]
        exact (abs_iteratedDeriv_trig _ τ).2) 0 le_rfl (fun i hi => by
        rw [h0, Real.sin_zero, sub_self, abs_zero])
  refine ⟨tr, htr, fun tr' η hnear n hn c' hc' Y hY τ hτ0 hτ1 => ?_⟩
  have du : double.u = 1 / 2 ^ 53 := rfl
  obtain ⟨V, hV, -, -, hv⟩ := key double tr' η hnear (by rw [du]; norm_num) [τ] (by simp)
  refine ⟨V, hV, ?_⟩
  have k := hv 0 (by simp) n hn ⟨hτ0, hτ1.le⟩ (.inl hτ1) c' hc' 0 Nat.one_pos Y hY
  have hY0 : 0 ≤ Y := (abs_nonneg _).trans (hY 0 (by norm_num))
  refine k.trans (add_le_add (le_of_eq ?_) ?_)
  · rw [h0]
    simp only [List.length_singleton, sub_zero, zero_add, one_mul, pow_one, Nat.reduceAdd]
  · rw [du, add_assoc]
    refine add_le_add le_rfl ?_
    rw [show ∀ a b : ℝ, a * (Y * 3) + b * (Y * 4) = (3 * a + 4 * b) * Y by intros; ring]
    refine mul_le_mul_of_nonneg_right ?_ hY0
    norm_num

end Flt

end CE
