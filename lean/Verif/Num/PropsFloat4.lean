import Verif.Num.PropsFloat2
import Verif.Num.PropsDenseTol

/-!
# Property C115: total error of evaluated trajectories

The object that a program holds differs from the one of the model over the real numbers in two ways: its coefficients are results of CasADi and
carry errors, and its basis and the evaluation are computed with rounding errors.  C115 bounds the total difference, and with C110 the
difference between the computed values of the trajectory that `integrate` returns and the exact solution of the model.
-/

open Polynomial Set

namespace CE

namespace Flt

/-- The object `pp'` in floating point belongs to `pp`: the same intervals, coefficients of the same shapes that differ at most by `η`, and the
basis that `PolynomialBasis` computes for the same nodes. -/
structure Near (f : Flt) (tau : List ℝ) (pp : PiecewisePoly ℝ) (pp' : Piecewise) (η : ℝ) : Prop where
  intervals : pp'.intervals = pp.intervals
  basis : f.polynomialBasis tau = .ok pp'.basis
  len : pp'.coefficients.length = pp.coefficients.length
  shape : ∀ (n : ℕ) (c c' : Mat ℝ), pp.coefficients[n]? = some c → pp'.coefficients[n]? = some c' → c'.rows = c.rows ∧ c'.cols = c.cols
  close : ∀ (n : ℕ) (c c' : Mat ℝ), pp.coefficients[n]? = some c → pp'.coefficients[n]? = some c' →
    ∀ r < c.rows, ∀ j < c.cols, |c'.e r j - c.e r j| ≤ η

variable {f : Flt}

theorem Near.wf {tau : List ℝ} {pp : PiecewisePoly ℝ} {pp' : Piecewise} {η : ℝ} {R : ℕ} (h : f.Near tau pp pp' η) (w : pp.WF tau R) :
    pp'.WF f tau R := by
  have hc : ∀ c' ∈ pp'.coefficients, c'.rows = R ∧ c'.cols = tau.length := by
    intro c' hc'
    obtain ⟨i, hi, rfl⟩ := List.mem_iff_getElem.mp hc'
    have hi' : i < pp.coefficients.length := by rw [← h.len]; exact hi
    have := h.shape i _ _ (List.getElem?_eq_getElem hi') (List.getElem?_eq_getElem hi)
    rw [this.1, this.2]
    exact ⟨w.rows _ (List.getElem_mem hi'), w.cols _ (List.getElem_mem hi')⟩
  exact ⟨w.ne, w.nodup, h.basis, by rw [h.intervals]; exact w.asc, by rw [h.intervals]; exact w.two,
    by rw [h.intervals, h.len]; exact w.len, fun c hc' => (hc c hc').1, fun c hc' => (hc c hc').2⟩

/-- **C115** Evaluation of a piecewise polynomial whose coefficients carry errors of at most `η`, with rounding errors: at the times of an
interval the computed value differs from the exact one at most by `Λ*η` plus the rounding errors, which are proportional to the bound `C` of
the coefficients; `Λ` and `Λ'` bound the sums of the absolute values of the Lagrange polynomials and of their derivatives. -/
theorem C115_evaluation (pp : PiecewisePoly ℝ) (pp' : Piecewise) (tau : List ℝ) (R : ℕ) (w : pp.WF tau R) (η : ℝ) (hn : f.Near tau pp pp' η)
    (Λ Λ' : ℝ) (hΛ : ∀ x, 0 ≤ x → x ≤ 1 →
      ∑ j ∈ Finset.range tau.length, |(Lagrange.basis (Finset.range tau.length) (nd tau) j).eval x| ≤ Λ)
    (hΛ' : ∀ x, 0 ≤ x → x ≤ 1 →
      ∑ j ∈ Finset.range tau.length, |(derivative (Lagrange.basis (Finset.range tau.length) (nd tau) j)).eval x| ≤ Λ')
    (hE : (1 / (1 - f.u) ^ (3 * tau.length + 1) - 1) * Λ < 1)
    (cont : String) (side : Side) (hs : PiecewisePoly.parseSide cont = .ok side) (ts : List ℝ) (hts : ts ≠ []) :
    ∃ V V', pp.call ts cont = .ok V ∧ f.call pp' ts cont = .ok V' ∧ V'.rows = R ∧ V'.cols = ts.length ∧
      ∀ k < ts.length, ∀ n, InSide side pp.intervals n (nd ts k) →
      nd pp.intervals n ≤ nd ts k → nd ts k ≤ nd pp.intervals (n + 1) → ∀ c', pp'.coefficients[n]? = some c' →
      ∀ r < R, ∀ C, (∀ j < tau.length, |c'.e r j| ≤ C) →
      let E := (1 / (1 - f.u) ^ (3 * tau.length + 1) - 1) * Λ
      |V'.e r k - V.e r k| ≤ Λ * η + (1 / (1 - f.u) ^ tau.length * (1 + 2 * E / (1 - E)) - 1) * (C * Λ) +
        (1 / (1 - f.u) ^ 3 - 1) * (C * Λ') := by
  obtain ⟨V, hV, -, -, hval⟩ := call_ok w cont side hs ts hts
  obtain ⟨V', hV', hr', hc', hval'⟩ := C113_forward pp' tau R (hn.wf w) cont side hs ts hts Λ hΛ hE
  refine ⟨V, V', hV, hV', hr', hc', fun k hk n hin ha hb c' hc r hr C hC => ?_⟩
  rw [hn.intervals] at hval'
  have hn1 : n + 1 < pp.intervals.length := by cases side <;> exact hin.1
  have hnc : n < pp.coefficients.length := by have := w.len; omega
  have hget : pp.coefficients[n]? = some pp.coefficients[n] := List.getElem?_eq_getElem hnc
  obtain ⟨P, hP⟩ := w.exists_piece hn1 r
  have hpos := w.h_pos hn1
  set s := (nd ts k - nd pp.intervals n) / (nd pp.intervals (n + 1) - nd pp.intervals n) with hsd
  have s0 : 0 ≤ s := div_nonneg (by linarith) hpos.le
  have s1 : s ≤ 1 := (div_le_one hpos).mpr (by linarith)
  have hVe : V.e r k = ∑ j ∈ Finset.range tau.length, (pp.coefficients[n]).e r j *
      (Lagrange.basis (Finset.range tau.length) (nd tau) j).eval s := by
    rw [w.piece_sum hP hget, hval k hk n hin r P hP]
    congr 1
    rw [hsd]
    field_simp
    ring
  let Q : ℝ[X] := Lagrange.interpolate (Finset.range tau.length) (nd tau) (fun j => c'.e r j)
  have hQs : ∀ x, Q.eval x = ∑ j ∈ Finset.range tau.length, c'.e r j * (Lagrange.basis (Finset.range tau.length) (nd tau) j).eval x := by
    intro x
    simp only [Q, Lagrange.interpolate_apply, eval_finset_sum, eval_mul, eval_C]
  have hQ's : ∀ x, (derivative Q).eval x =
      ∑ j ∈ Finset.range tau.length, c'.e r j * (derivative (Lagrange.basis (Finset.range tau.length) (nd tau) j)).eval x := by
    intro x
    simp only [Q, Lagrange.interpolate_apply, derivative_sum, derivative_C_mul, eval_finset_sum, eval_mul, eval_C]
  have hQd : Q.degree < tau.length := by
    have := Lagrange.degree_interpolate_lt (fun j => c'.e r j) (nd_injOn w.nodup)
    rwa [Finset.card_range] at this
  have hC0 : 0 ≤ C := (abs_nonneg _).trans (hC 0 (List.length_pos_iff.mpr w.ne))
  have key := hval' k hk n hin ha hb c' hc r Q C (C * Λ') hQd
    (fun j hj => Lagrange.eval_interpolate_at_node _ (nd_injOn w.nodup) (by simpa)) hC (by
      intro x hx0 hx1
      rw [hQ's]
      refine (Finset.abs_sum_le_sum_abs _ _).trans (le_trans ?_ (mul_le_mul_of_nonneg_left (hΛ' x hx0 hx1) hC0))
      rw [Finset.mul_sum]
      refine Finset.sum_le_sum fun j hj => ?_
      rw [abs_mul]
      exact mul_le_mul_of_nonneg_right (hC j (Finset.mem_range.mp hj)) (abs_nonneg _))
  intro E
  have hη : 0 ≤ η := by
    have hj : 0 < tau.length := List.length_pos_iff.mpr w.ne
    exact (abs_nonneg _).trans (hn.close n _ c' hget hc r (by rw [w.rows _ (List.getElem_mem hnc)]; exact hr) 0
      (by rw [w.cols _ (List.getElem_mem hnc)]; exact hj))
  have hdiff : |Q.eval s - V.e r k| ≤ Λ * η := by
    rw [hQs, hVe, ← Finset.sum_sub_distrib]
    refine (Finset.abs_sum_le_sum_abs _ _).trans (le_trans ?_ (mul_le_mul_of_nonneg_right (hΛ s s0 s1) hη))
    rw [Finset.sum_mul]
    refine Finset.sum_le_sum fun j hj => ?_
    rw [← sub_mul, abs_mul, mul_comm]
    refine mul_le_mul_of_nonneg_left ?_ (abs_nonneg _)
    exact hn.close n _ c' hget hc r (by rw [w.rows _ (List.getElem_mem hnc)]; exact hr) j
      (by rw [w.cols _ (List.getElem_mem hnc)]; exact Finset.mem_range.mp hj)
  refine (abs_sub_le _ (Q.eval s) _).trans ?_
  linarith

/-- **C115** The constants exist for all nodes. -/
theorem C115_constants (tau : List ℝ) : ∃ Λ Λ' : ℝ, 0 ≤ Λ ∧ 0 ≤ Λ' ∧
    (∀ x, 0 ≤ x → x ≤ 1 →
      ∑ j ∈ Finset.range tau.length, |(Lagrange.basis (Finset.range tau.length) (nd tau) j).eval x| ≤ Λ) ∧
    ∀ x, 0 ≤ x → x ≤ 1 →
      ∑ j ∈ Finset.range tau.length, |(derivative (Lagrange.basis (Finset.range tau.length) (nd tau) j)).eval x| ≤ Λ' := by
  have key : ∀ p : ℕ → ℝ[X], ∃ Λ : ℝ, 0 ≤ Λ ∧ ∀ x, 0 ≤ x → x ≤ 1 → ∑ j ∈ Finset.range tau.length, |(p j).eval x| ≤ Λ := by
    intro p
    have hc : ContinuousOn (fun x : ℝ => ∑ j ∈ Finset.range tau.length, |(p j).eval x|) (Icc 0 1) :=
      (continuous_finset_sum _ fun j _ => (p j).continuous.abs).continuousOn
    obtain ⟨Λ, hΛ⟩ := isCompact_Icc.exists_bound_of_continuousOn hc
    have h : ∀ x, 0 ≤ x → x ≤ 1 → ∑ j ∈ Finset.range tau.length, |(p j).eval x| ≤ Λ := fun x h0 h1 => (le_abs_self _).trans (hΛ x ⟨h0, h1⟩)
    exact ⟨Λ, (Finset.sum_nonneg fun _ _ => abs_nonneg _).trans (h 0 le_rfl zero_le_one), h⟩
  obtain ⟨Λ, h1, h2⟩ := key fun j => Lagrange.basis (Finset.range tau.length) (nd tau) j
  obtain ⟨Λ', h3, h4⟩ := key fun j => derivative (Lagrange.basis (Finset.range tau.length) (nd tau) j)
  exact ⟨Λ, Λ', h1, h3, h2, h4⟩

/-- **C115** For the models, grids and root finders of C110, and the trajectory that `integrate` returns, with coefficients that carry errors of
at most `η`, in floating point: the computed values differ from the exact solution at most by the bound of C110 (discretisation and tolerance)
plus `Λ*η` plus the rounding errors of the evaluation. -/
theorem C115_integrate (tau : List ℝ) (hd : tau.Nodup) (hz : 0 ∉ tau) (h01 : ∀ k < tau.length, nd tau k ∈ Icc (0 : ℝ) 1)
    (Λ Λ' : ℝ) (hΛ : ∀ x, 0 ≤ x → x ≤ 1 →
      ∑ j ∈ Finset.range (tau.length + 1), |(Lagrange.basis (Finset.range (tau.length + 1)) (nd (0 :: tau)) j).eval x| ≤ Λ)
    (hΛ' : ∀ x, 0 ≤ x → x ≤ 1 →
      ∑ j ∈ Finset.range (tau.length + 1), |(derivative (Lagrange.basis (Finset.range (tau.length + 1)) (nd (0 :: tau)) j)).eval x| ≤ Λ') :
    ∃ C ≥ 0, ∀ (fresh freshI : String → ℕ) (casadiPoints : ℕ → String → Except PyErr (List ℝ))
      (csFunction : List (MXExpr ℝ) → List (MXExpr ℝ) → Except PyErr (CsFn ℝ))
      (dae : DaeObj ℝ) (t : List ℝ) (order : ℕ) (method : String) (tdp_fun : Option (ℝ → Mat ℝ))
      (d : DaeObj ℝ) (xdot res : MXExpr ℝ) (F : CsFn ℝ), IsCsFunction csFunction →
      SchemePre freshI casadiPoints csFunction dae t order method tdp_fun d xdot res tau F →
      DistinctSyms fresh → dae.np = 0 ∨ dae.nq = 0 →
      ∀ (L Lz G Gz θ : ℝ), RegularDae d xdot res L Lz G Gz → Solvable d xdot res →
      ∀ (T : ButcherTableau ℝ), butcherTableuForCollocationPoints tau = .ok T → ∀ (α β H : ℝ),
      (∀ j < order, ∑ k ∈ Finset.range order, |T.A.e [j, k]| ≤ α) → ∑ k ∈ Finset.range order, |T.b.e [k]| ≤ β →
      (∀ n < t.length - 1, nd t n < nd t (n + 1) ∧ nd t (n + 1) - nd t n ≤ H) → θ < 1 → L * (H * α) ≤ θ →
      ∀ (rootfinder : (List ℝ → List ℝ) → List ℝ → Except PyErr (List ℝ)) (tol : ℝ), 0 ≤ tol →
      (∀ f w0 sol, rootfinder f w0 = .ok sol → ∀ v ∈ f sol, |v| ≤ tol) →
      ∃ g, Integrator.new fresh freshI casadiPoints csFunction dae t order method tdp_fun = .ok g ∧
      ∀ x0 z0 u p out, g.call rootfinder x0 z0 u p = .ok out →
      ∀ (y : ℕ → ℝ → ℝ) (f ζ : ℕ → ℕ → ℝ → ℝ), ExactDae d xdot res tdp_fun t u.e (fun i => p.e i 0) y f ζ →
      ∀ B, 0 ≤ B → (∀ n < t.length - 1, ∀ i < d.nx, ContDiffOn ℝ order (f n i) (Icc (nd t n) (nd t (n + 1)))) →
      (∀ n < t.length - 1, ∀ i < d.nx, ∀ τ ∈ Icc (nd t n) (nd t (n + 1)),
        |iteratedDerivWithin order (f n i) (Icc (nd t n) (nd t (n + 1))) τ| ≤ B) →
      ∀ ε, 0 ≤ ε → (∀ i < d.nx, |x0.e i 0 - y i (nd t 0)| ≤ ε) →
      let Λ₀ := β * L / (1 - θ)
      let D := B * H ^ order / ((order - 1).factorial : ℝ)
      let e := fun n : ℕ => Real.exp (Λ₀ * (nd t n - nd t 0)) * (ε + (nd t n - nd t 0) * ((1 + β + Λ₀ * H * (1 + α)) * D) +
        (1 + (nd t n - nd t 0) * (β * G / (1 - θ)) + n) * tol)
      let W := fun n : ℕ => (e n + H * (1 + α) * D + H * α * (G * tol)) / (1 - θ)
      ∃ tr, g.integrate fresh rootfinder x0 z0 u p = .ok (out, tr) ∧
        ∀ (fl : Flt) (tr' : Piecewise) (η : ℝ), fl.Near (0 :: tau) tr tr' η →
        (1 / (1 - fl.u) ^ (3 * (tau.length + 1) + 1) - 1) * Λ < 1 → ∀ ts : List ℝ, ts ≠ [] →
        ∃ V, fl.call tr' ts "right" = .ok V ∧ V.rows = d.nx ∧ V.cols = ts.length ∧
        ∀ k < ts.length, ∀ n < t.length - 1, nd ts k ∈ Icc (nd t n) (nd t (n + 1)) → (nd ts k < nd t (n + 1) ∨ n + 1 = t.length - 1) →
          ∀ c', tr'.coefficients[n]? = some c' → ∀ i < d.nx, ∀ Y, (∀ j < tau.length + 1, |c'.e i j| ≤ Y) →
          let E := (1 / (1 - fl.u) ^ (3 * (tau.length + 1) + 1) - 1) * Λ
          |V.e i k - y i (nd ts k)| ≤ (C * W n + B * H ^ (order + 1)) + (Λ * η +
            (1 / (1 - fl.u) ^ (tau.length + 1) * (1 + 2 * E / (1 - E)) - 1) * (Y * Λ) + (1 / (1 - fl.u) ^ 3 - 1) * (Y * Λ')) := by
  obtain ⟨C, hC, h110⟩ := C110_tolerance tau hd hz h01
  refine ⟨C, hC, fun fresh freshI casadiPoints csFunction dae t order method tdp_fun d xdot res F hcs pre hfr hpq L Lz G Gz θ reg hsolv T
    hT α β H hα hβ ht hθ hstep rootfinder tol htol hrf => ?_⟩
  obtain ⟨g, hg, hmain⟩ := h110 fresh freshI casadiPoints csFunction dae t order method tdp_fun d xdot res F hcs pre hfr hpq L Lz G Gz θ reg
    hsolv T hT α β H hα hβ ht hθ hstep rootfinder tol htol hrf
  obtain ⟨g', hg', hs, hcall⟩ := integrator_env_tol fresh freshI casadiPoints csFunction dae t order method tdp_fun d xdot res tau F pre hfr hpq
    rootfinder tol hrf
  rw [hg] at hg'
  cases hg'
  refine ⟨g, hg, fun x0 z0 u p out hout y f ζ hex B hB0 hsm hB ε hε h0 => ?_⟩
  obtain ⟨env, -, -, -, -, hox, hoK, -, -, hint⟩ := hcall x0 z0 u p out hout
  intro Λ₀ D e W
  obtain ⟨-, tr, dtr, htr, -, hts⟩ := hmain x0 z0 u p out hout y f ζ hex B hB0 hsm hB ε hε h0
  have b := pre.built hs
  obtain ⟨pp, hpp, hpi, w, -⟩ := piecewisePolyX_pieces fresh freshI casadiPoints csFunction dae t order method tdp_fun d xdot res tau F false
    g.scheme pre hs hd hz (fun n hn => (ht n (by omega)).1) hfr.xK out.x out.Kd
    (by rw [hox, b.x, b.N_eq]; exact ⟨pre.wf.nx.symm, rfl⟩) (by rw [hoK, b.Kd, b.N_eq, b.M_eq]; exact ⟨pre.wf.nx.symm, rfl⟩)
  rw [hpp] at hint
  rw [htr] at hint
  obtain rfl : tr = pp := congrArg Prod.snd (Except.ok.inj hint)
  refine ⟨tr, htr, fun fl tr' η hnear hE ts hne => ?_⟩
  obtain ⟨V, V', hV, hV', r1, r2, hv⟩ := C115_evaluation tr tr' (0 :: tau) d.nx w η hnear Λ Λ' hΛ hΛ' hE "right" .right rfl ts hne
  obtain ⟨V₀, _, hV₀, -, -, -, -, -, hb⟩ := hts ts hne
  have hVV : V₀ = V := Except.ok.inj (hV₀.symm.trans hV)
  subst hVV
  refine ⟨V', hV', r1, r2, fun k hk n hn hin hside c' hc' i hi Y hY => ?_⟩
  intro E
  rw [hpi] at hv
  have q1 := (hb k hk n hn hin hside i hi).1
  have q2 := hv k hk n ⟨by omega, .inr hin.1, by
    rcases hside with h | h
    · exact .inr h
    · exact .inl (by omega)⟩ hin.1 hin.2 c' hc' i hi Y hY
  have q3 := abs_sub_le (V'.e i k) (V₀.e i k) (y i (nd ts k))
  refine q3.trans ?_
  rw [add_comm]
  exact add_le_add q1 q2

/-! ## Non-vacuity -/

/-- Every object of the model has one in floating point, with the same coefficients. -/
theorem near_self (f : Flt) {tau : List ℝ} {R : ℕ} {pp : PiecewisePoly ℝ} (w : pp.WF tau R) : ∃ pp', f.Near tau pp pp' 0 := by
  obtain ⟨b, hb⟩ : ∃ b, f.polynomialBasis tau = .ok b := ⟨_, f.polynomialBasis_ok w.ne⟩
  refine ⟨⟨pp.intervals, pp.coefficients, b⟩, rfl, hb, rfl, ?_, ?_⟩
  · intro n c c' h h'
    rw [h] at h'
    cases h'
    exact ⟨rfl, rfl⟩
  · intro n c c' h h' r _ j _
    rw [h] at h'
    cases h'
    simp

/-- With doubles and the model, the rule and the root finders of the example of C110: if the coefficients carry errors of at most `η` and are
bounded by `Y`, the computed values of the trajectory differ from `exp(-t)` at most by the expression of C110 plus `3*η + 200*2^-53*Y`. -/
example : ∃ C ≥ 0, ∀ (freshI : String → ℕ), 7 ≤ freshI "xdot" → ∀ (t : List ℝ) (H : ℝ), 2 ≤ t.length → H ≤ 1 → nd t 0 = 0 →
    (∀ n < t.length - 1, nd t n < nd t (n + 1) ∧ nd t (n + 1) - nd t n ≤ H) →
    ∀ (rootfinder : (List ℝ → List ℝ) → List ℝ → Except PyErr (List ℝ)) (tol : ℝ), 0 ≤ tol →
    (∀ f w0 sol, rootfinder f w0 = .ok sol → ∀ v ∈ f sol, |v| ≤ tol) → ∃ g,
    Integrator.new exFresh freshI (fun _ _ => .ok [1 / 2]) idealCsFunction loopO t 1 "legendre" none = .ok g ∧
    ∀ z0 u p out, g.call rootfinder ⟨1, 1, fun _ _ => 1⟩ z0 u p = .ok out → ∃ tr,
      g.integrate exFresh rootfinder ⟨1, 1, fun _ _ => 1⟩ z0 u p = .ok (out, tr) ∧
      ∀ tr' η, double.Near [0, 1 / 2] tr tr' η → ∀ n < t.length - 1, ∀ c', tr'.coefficients[n]? = some c' →
        ∀ Y, (∀ j < 2, |c'.e 0 j| ≤ Y) → ∀ τ, nd t n ≤ τ → τ < nd t (n + 1) → ∃ V, double.call tr' [τ] "right" = .ok V ∧
        |V.e 0 0 - Real.exp (-τ)| ≤ C * (Real.exp (2 * nd t n) * (5 * nd t n * H + (1 + 4 * nd t n + n) * tol) + 2 * H + tol) +
          (3 * η + 200 / 2 ^ 53 * Y) := by
  have e0 : (Lagrange.basis (Finset.range 2) (nd [(0 : ℝ), 1 / 2]) 0) = C (-2) * X + C 1 := by
    simp only [Lagrange.basis, Lagrange.basisDivisor, show (Finset.range 2).erase 0 = {1} by decide, Finset.prod_singleton]
    rw [show nd [(0 : ℝ), 1 / 2] 0 = 0 from rfl, show nd [(0 : ℝ), 1 / 2] 1 = 1 / 2 from rfl, mul_sub, ← C_mul,
      show ((0 : ℝ) - 1 / 2)⁻¹ = -2 by norm_num, show (-2 : ℝ) * (1 / 2) = -1 by norm_num, C_neg, C_neg, sub_neg_eq_add]
  have e1 : (Lagrange.basis (Finset.range 2) (nd [(0 : ℝ), 1 / 2]) 1) = C 2 * X := by
    simp [Lagrange.basis, Lagrange.basisDivisor, show (Finset.range 2).erase 1 = {0} by decide, nd]
  obtain ⟨K, hK, h115⟩ := C115_integrate ([1 / 2] : List ℝ) (by simp) (by simp)
    (by intro k hk; obtain rfl : k = 0 := (by simpa using hk); norm_num [nd]) 3 4 (by
      intro x hx0 hx1
      simp only [List.length_cons, List.length_nil, zero_add, Nat.reduceAdd, Finset.sum_range_succ, Finset.sum_range_zero, e0, e1, eval_add,
        eval_mul, eval_C, eval_X]
      rcases abs_cases (-2 * x + 1) with ⟨h, -⟩ | ⟨h, -⟩ <;> rw [h, abs_of_nonneg (by linarith : 0 ≤ 2 * x)] <;> linarith) (by
      intro x hx0 hx1
      simp only [List.length_cons, List.length_nil, zero_add, Nat.reduceAdd, Finset.sum_range_succ, Finset.sum_range_zero, e0, e1]
      simp
      norm_num)
  refine ⟨2 * K + 1, by positivity, fun freshI hI t H two hH h0 ht rootfinder tol htol hrf => ?_⟩
  obtain ⟨F, pre⟩ := loop_pre freshI hI t [1 / 2] two (by simp)
  obtain ⟨T, hT, hA, hB, -⟩ := C09_butcher_consistent ([1 / 2] : List ℝ) (by simp) (by simp)
  obtain ⟨T', hT', -, -, -, hc, -⟩ := C08_butcher_exact ([1 / 2] : List ℝ) (by simp)
  rw [hT] at hT'
  cases hT'
  have hA0 : T.A.e [0, 0] = 1 / 2 := by
    have := hA 0 (by simp)
    rw [hc 0 (by simp)] at this
    simpa using this
  have hB0 : T.b.e [0] = 1 := by simpa using hB
  have hH0 : 0 ≤ H := by
    have := ht 0 (by omega)
    linarith [this.1, this.2]
  have hpos : ∀ n ≤ t.length - 1, 0 ≤ nd t n := by
    intro n
    induction n with
    | zero => intro _; exact h0.ge
    | succ n ih => intro hn; exact (ih (by omega)).trans (ht n (by omega)).1.le
  obtain ⟨g, hg, h⟩ := h115 exFresh freshI _ _ _ _ _ _ _ _ _ _ _ idealCsFunction_spec pre (by constructor <;> decide) (.inl rfl) 1 1 2 1
    (1 / 2) (loop_regular freshI) (loop_index freshI).2 T hT (1 / 2) 1 H (by
      intro j hj
      change j < 1 at hj
      obtain rfl : j = 0 := by omega
      show ∑ k ∈ Finset.range 1, _ ≤ _
      rw [Finset.sum_range_one, hA0]
      norm_num) (by
      show ∑ k ∈ Finset.range 1, _ ≤ _
      rw [Finset.sum_range_one, hB0, abs_one]) ht (by norm_num) (by linarith) rootfinder tol htol hrf
  refine ⟨g, hg, fun z0 u p out hout => ?_⟩
  obtain ⟨ex, sm, bd⟩ := decay_exact freshI t 1 u.e (fun i => p.e i 0) (fun n hn => ⟨hpos n (by omega), (ht n (by omega)).1⟩)
  obtain ⟨tr, htr, key⟩ := h _ z0 u p out hout (fun _ τ => Real.exp (-τ)) (fun _ _ τ => -Real.exp (-τ))
    (fun _ _ τ => Real.exp (-τ))
    ⟨fun n hn i hi => ex.deriv n hn i hi, fun n _ τ _ e h => (loop_zero freshI e).mpr (by
      have h1 := h.xdot 0 Nat.one_pos
      have h2 := h.x 0 Nat.one_pos
      have h3 := h.z 0 Nat.one_pos
      simp only [loopD, MXExpr.sym] at h1 h2 h3
      rw [h1, h2, h3]
      exact ⟨rfl, rfl⟩)⟩ 1 zero_le_one (fun n hn i _ => sm n hn) (fun n hn i _ => bd n hn) 0 le_rfl (by
      intro i hi
      rw [h0]
      simp)
  refine ⟨tr, htr, fun tr' η hnear n hn c' hc' Y hY τ hτ0 hτ1 => ?_⟩
  have du : double.u = 1 / 2 ^ 53 := rfl
  obtain ⟨V, hV, -, -, hv⟩ := key double tr' η hnear (by rw [du]; norm_num) [τ] (by simp)
  refine ⟨V, hV, ?_⟩
  have k := hv 0 (by simp) n hn ⟨hτ0, hτ1.le⟩ (.inl hτ1) c' hc' 0 Nat.one_pos Y hY
  have hY0 : 0 ≤ Y := (abs_nonneg _).trans (hY 0 (by norm_num))
  refine k.trans (add_le_add ?_ ?_)
  case refine_2 =>
    rw [du, add_assoc]
    refine add_le_add le_rfl ?_
    rw [show ∀ a b : ℝ, a * (Y * 3) + b * (Y * 4) = (3 * a + 4 * b) * Y by intros; ring]
    refine mul_le_mul_of_nonneg_right ?_ hY0
    norm_num
  clear k
  have e0 : nd [τ] 0 = τ := rfl
  have e1 : (((1 : ℕ) - 1).factorial : ℝ) = 1 := by simp
  simp only [e0, h0, sub_zero, zero_add, List.length_singleton, e1, pow_one, one_mul, div_one, mul_one]
  have e2 : (1 : ℝ) / (1 - 1 / 2) = 2 := by norm_num
  have e3 : (2 : ℝ) / (1 - 1 / 2) = 4 := by norm_num
  rw [e2, e3]
  have hn0 := hpos n hn.le
  have hE : 0 ≤ Real.exp (2 * nd t n) := (Real.exp_pos _).le
  set E := Real.exp (2 * nd t n) with hEdef
  set a := nd t n with ha
  have hEτ : 0 ≤ E * a * H := by positivity
  have q1 : E * (a * ((1 + 1 + 2 * H * (1 + 1 / 2)) * H)) ≤ E * a * H * 5 := by
    have : 2 + 3 * H ≤ 5 := by linarith
    nlinarith [mul_le_mul_of_nonneg_left this hEτ]
  have q2 : H * H ≤ H := by nlinarith
  have q3 : H * tol ≤ tol := by nlinarith
  have q4 : (E * (a * ((1 + 1 + 2 * H * (1 + 1 / 2)) * H) + (1 + a * 4 + n) * tol) + H * (1 + 1 / 2) * H + H * (1 / 2) * (2 * tol)) / (1 - 1 / 2) ≤
      2 * (E * (5 * a * H + (1 + 4 * a + n) * tol) + 2 * H + tol) := by
    rw [div_le_iff₀ (by norm_num)]
    nlinarith
  have q5 := mul_le_mul_of_nonneg_left q4 hK
  have q6 : 0 ≤ E * (5 * a * H + (1 + 4 * a + n) * tol) := by positivity
  have q7 : H ^ (1 + 1) ≤ H := by rw [pow_succ, pow_one]; exact q2
  linarith

end Flt

end CE
