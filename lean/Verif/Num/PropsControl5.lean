import Verif.Num.PropsControl3
import Verif.Num.PropsQuadTol

/-! # Property C140: optimal control problems that the solver solves up to tolerances -/

open Set

namespace CE

/-- What a solver for nonlinear programs returns: the equations are solved up to `tol`, the decision is in `U`, the constraints are violated at
most by `η`, and no feasible solution is better by more than `η`. -/
structure NearOptimal {ι : Type} (s : Scheme ℝ) (U : Set Decision) (φ : CostFn) (G : ι → CostFn) (tol η : ℝ) (env : Env ℝ) : Prop where
  eq : ∀ v ∈ s.eq.vals env, |v| ≤ tol
  mem : s.decision env ∈ U
  con : ∀ c, s.cost (G c) env ≤ η
  min : ∀ env', Feasible s U G env' → s.cost φ env ≤ s.cost φ env' + η

/-- **C140** (tolerances) As `C140_contractive_quadrature`, for a solution up to tolerances: with `E tol`, which contains in addition
`(T₀ + N) tol`, the computed cost differs from the exact cost at most by `Λ E(tol)`, the exact solution violates the constraints at most by
`Λ E(tol) + η`, and no decision whose exact solution satisfies the constraints with the margin `Λ E(0)` is better by more than
`Λ E(tol) + Λ E(0) + η`. -/
theorem C140_tolerance (tau : List ℝ) (hnode : IsGauss tau ∨ IsRadau tau) (S : ℕ → ℕ → ℝ) (m : ℕ) (hpd : PosDefForm S m) :
    ∃ C ≥ 0, ∀ (fresh freshI : String → ℕ) (casadiPoints : ℕ → String → Except PyErr (List ℝ))
      (csFunction : List (MXExpr ℝ) → List (MXExpr ℝ) → Except PyErr (CsFn ℝ))
      (dae : DaeObj ℝ) (t : List ℝ) (order : ℕ) (method : String) (tdp_fun : Option (ℝ → Mat ℝ))
      (d : DaeObj ℝ) (xdot res ode : MXExpr ℝ) (F : CsFn ℝ) (rep : Bool) (s : Scheme ℝ), IsCsFunction csFunction →
      SchemePre freshI casadiPoints csFunction dae t order method tdp_fun d xdot res tau F →
      Scheme.new fresh freshI casadiPoints csFunction dae t order method tdp_fun rep = .ok s →
      [fresh "x", fresh "K", fresh "Z", fresh "u", fresh "P"].Nodup → d.nx = m → d.nz = 0 → ContractiveOde d xdot res ode S →
      LocLipschitzDae d xdot res → ∀ Lq Lqz, 0 ≤ Lq → LipschitzQuadZ d Lq Lqz →
      ∀ H, (∀ n < s.N, nd t n < nd t (n + 1) ∧ nd t (n + 1) - nd t n ≤ H) →
      ∀ (U : Set Decision) (y : Decision → ℕ → ℝ → ℝ) (f ζ : Decision → ℕ → ℕ → ℝ → ℝ) (Y : Decision → ℕ → ℝ → ℝ)
        (g : Decision → ℕ → ℕ → ℝ → ℝ) (B Bq : ℝ), ExactFamily d xdot res tdp_fun t order U y f ζ Y g B Bq → 0 ≤ B → 0 ≤ Bq →
      ∀ (ι : Type) (φ : CostFn) (G : ι → CostFn) (Λ : ℝ), LipschitzCost m d.nq s.N Λ φ → (∀ c, LipschitzCost m d.nq s.N Λ (G c)) →
      ∀ (tol η : ℝ) (env : Env ℝ), 0 ≤ tol → NearOptimal s U φ G tol η env →
      (rep = true → ∀ c < s.N * s.M, ∀ i < d.np, s.p.val env i c = s.p.val env i 0) →
      let T₀ := nd t s.N - nd t 0
      let E := fun tol : ℝ => C * (B * T₀ * H ^ s.M + (T₀ + s.N) * tol +
        T₀ * (Lq * (B * T₀ * H ^ s.M + B * H ^ (s.M + 1) + (T₀ + s.N) * tol) + Bq * H ^ s.M))
      |s.cost φ env - exactCost t y Y φ (s.decision env)| ≤ Λ * E tol ∧ (∀ c, exactCost t y Y (G c) (s.decision env) ≤ Λ * E tol + η) ∧
      ∀ w ∈ U, (∀ c, exactCost t y Y (G c) w ≤ -(Λ * E 0)) →
        exactCost t y Y φ (s.decision env) ≤ exactCost t y Y φ w + (Λ * E tol + Λ * E 0 + η) := by
  obtain ⟨C₁, hC₁, h96⟩ := C96_components tau hnode S m hpd
  obtain ⟨C₂, hC₂, h97⟩ := C97_contractive tau hnode S m hpd
  obtain ⟨C₃, hC₃, h119⟩ := C119_contractive tau hnode S m hpd
  obtain ⟨c', hc', hmin⟩ := max_le_qnorm S m hpd
  refine ⟨C₁ + c' * C₂ + C₃, by positivity, ?_⟩
  intro fresh freshI casadiPoints csFunction dae t order method tdp_fun d xdot res ode F rep s hcs pre hs hf hm hz con lip Lq Lqz hLq lq H ht U y f ζ
    Y g B Bq ex hB hBq ι φ G Λ hφ hG tol η env htol opt hrep T₀ E
  have b := pre.built hs
  have hN := b.N_eq
  have hM := b.M_eq
  have two := pre.two
  have law := con.contractive' pre.wf.res_cols
  subst hm
  have hH : 0 ≤ H := by
    have := ht 0 (by omega)
    linarith
  have hmono' : ∀ n ≤ s.N, nd t n ≤ nd t s.N := by
    intro n hn
    induction hn using Nat.decreasingInduction with
    | self => exact le_rfl
    | of_succ k hk ih => exact (ht k hk).1.le.trans ih
  have hT0 : 0 ≤ T₀ := sub_nonneg.mpr (hmono' 0 (by omega))
  -- the errors of a solution up to a tolerance
  have herr : ∀ (tol : ℝ) (e : Env ℝ), 0 ≤ tol → (∀ v ∈ s.eq.vals e, |v| ≤ tol) →
      (rep = true → ∀ c < s.N * s.M, ∀ i < d.np, s.p.val e i c = s.p.val e i 0) → s.decision e ∈ U →
      (∀ n ≤ s.N, ∀ i < d.nx, |s.x.val e i n - y (s.decision e) i (nd t n)| ≤ E tol) ∧
      ∀ k < d.nq, |s.q.val e k s.N - (Y (s.decision e) k (nd t (t.length - 1)) - Y (s.decision e) k (nd t 0))| ≤ E tol := by
    intro tol e htol he hr hmem
    set w := s.decision e with hw
    have h0 : ∀ i < d.nx, |s.x.val e i 0 - y w i (nd t 0)| ≤ 0 := fun i hi => by
      rw [ex.start w hmem i hi, hw]
      simp [Scheme.decision]
    have hsm : ∀ n < s.N, ∀ i < d.nx, ContDiffOn ℝ s.M (f w n i) (Icc (nd t n) (nd t (n + 1))) := fun n hn => by
      rw [hM]; exact ex.smooth w hmem n (by omega)
    have hbd : ∀ n < s.N, ∀ i < d.nx, ∀ τ ∈ Icc (nd t n) (nd t (n + 1)),
        |iteratedDerivWithin s.M (f w n i) (Icc (nd t n) (nd t (n + 1))) τ| ≤ B := fun n hn => by
      rw [hM]; exact ex.bound w hmem n (by omega)
    set A := B * T₀ * H ^ s.M with hA
    have hA0 : 0 ≤ A := by positivity
    set P := (T₀ + s.N) * tol with hP
    have hP0 : 0 ≤ P := by positivity
    set R := T₀ * (Lq * (A + B * H ^ (s.M + 1) + P) + Bq * H ^ s.M) with hR
    have hR0 : 0 ≤ R := by positivity
    have hE : E tol = (C₁ + c' * C₂ + C₃) * (A + P + R) := rfl
    rw [hE]
    have p1 : 0 ≤ C₁ * (P + R) := by positivity
    have p2 : 0 ≤ c' * C₂ * (A + R) := by positivity
    have p3 : 0 ≤ C₃ * (A + P) := by positivity
    have p4 : 0 ≤ C₁ * A := by positivity
    have p5 : 0 ≤ c' * C₂ * P := by positivity
    have p6 : 0 ≤ C₃ * R := by positivity
    constructor
    · -- the exact solution of the equations with the same decision
      obtain ⟨e', heq', hx', hu', hp'⟩ := C98_exists fresh freshI casadiPoints csFunction dae t order method tdp_fun d xdot res tau F rep s
        hcs pre hs hf lip hnode S hpd law (fun n hn => (ht n hn).1) e hr (fun i => s.x.val e i 0)
      have hu'' : s.u.val e' = s.u.val e := by
        funext i n
        exact hu' i n
      have hp'' : s.p.val e' = s.p.val e := by
        funext i n
        exact hp' i n
      obtain ⟨a1, -⟩ := h97 fresh freshI casadiPoints csFunction dae t order method tdp_fun d xdot res ode F rep s hcs pre hs rfl con
        (fun n hn => (ht n hn).1) e e' tol 0 htol le_rfl he
        (fun v hv => by rw [heq' v hv, abs_zero]) (fun n _ i _ => (hu' i n).symm) (fun n _ i _ => (hp' i n).symm)
      obtain ⟨c1, -⟩ := h96 fresh freshI casadiPoints csFunction dae t order method tdp_fun d xdot res F rep s hcs pre hs hf rfl law H
        ht e' heq' (y w) (f w) (ζ w) (by rw [hu'', hp'']; exact ex.dae w hmem) B hB hsm hbd 0 le_rfl
        (fun i hi => by rw [hx' i]; exact h0 i hi)
      have hq0 : qnorm S d.nx (fun i => s.x.val e i 0 - s.x.val e' i 0) = 0 := by
        have : (fun i => s.x.val e i 0 - s.x.val e' i 0) = fun _ => 0 := by
          funext i
          rw [hx' i, sub_self]
        rw [this]
        simp [qnorm, qform]
      simp only [hq0, zero_add] at a1
      intro n hn i hi
      have g0 := hmono' n hn
      have g1 := hmin (fun i => s.x.val e i n - s.x.val e' i n) i hi
      have g2 : (nd t n - nd t 0 + n) * (tol + 0) ≤ P := by
        rw [add_zero]
        have g3 : (n : ℝ) ≤ s.N := by exact_mod_cast hn
        exact mul_le_mul_of_nonneg_right (by simp only [T₀]; linarith) htol
      have g4 := mul_le_mul_of_nonneg_left ((a1 n hn).trans (mul_le_mul_of_nonneg_left g2 hC₂)) hc'
      have g5 : B * (nd t n - nd t 0) * H ^ s.M ≤ A :=
        mul_le_mul_of_nonneg_right (mul_le_mul_of_nonneg_left (sub_le_sub_right g0 _) hB) (pow_nonneg hH _)
      have g6 := c1 n hn i hi
      rw [zero_add] at g6
      have g7 := mul_le_mul_of_nonneg_left g5 hC₁
      have g8 := abs_sub_le (s.x.val e i n) (s.x.val e' i n) (y w i (nd t n))
      linarith
    · intro k hk
      have cq := h119 fresh freshI casadiPoints csFunction dae t order method tdp_fun d xdot res ode F rep s hcs pre hs hf rfl hz con lip Lq Lqz hLq
        lq H ht e tol htol he hr (y w) (Y w) (f w) (ζ w) (g w) (ex.dae w hmem) (ex.quad w hmem) B Bq hB hBq hsm hbd
        (fun n hn => by rw [hM]; exact ex.smoothQ w hmem n (by omega)) (fun n hn => by rw [hM]; exact ex.boundQ w hmem n (by omega)) 0 le_rfl h0
        s.N le_rfl k hk
      rw [zero_add] at cq
      rw [← hN]
      refine cq.trans ?_
      show C₃ * R ≤ _
      linarith
  have key : ∀ ψ, LipschitzCost d.nx d.nq s.N Λ ψ → ∀ (tol : ℝ) (e : Env ℝ), 0 ≤ tol → (∀ v ∈ s.eq.vals e, |v| ≤ tol) →
      (rep = true → ∀ c < s.N * s.M, ∀ i < d.np, s.p.val e i c = s.p.val e i 0) → s.decision e ∈ U →
      |s.cost ψ e - exactCost t y Y ψ (s.decision e)| ≤ Λ * E tol := fun ψ hψ tol e h1 h2 h3 h4 =>
    hψ _ _ _ _ _ _ (herr tol e h1 h2 h3 h4).1 (herr tol e h1 h2 h3 h4).2
  have h1 := key φ hφ tol env htol opt.eq hrep opt.mem
  refine ⟨h1, fun c => ?_, fun w hw hc => ?_⟩
  · have := abs_le.mp (key (G c) (hG c) tol env htol opt.eq hrep opt.mem)
    have := opt.con c
    linarith
  · obtain ⟨e, k1, k2⟩ := exists_decision hf b w
    obtain ⟨e', heq, l1, l2, l3⟩ := C98_exists fresh freshI casadiPoints csFunction dae t order method tdp_fun d xdot res tau F rep s hcs pre hs hf
      lip hnode S hpd law (fun n hn => (ht n hn).1) e (fun _ c _ i _ => by rw [k2, k2]) w.x0
    have hdec : s.decision e' = w := by
      have e1 : s.u.val e' = w.u := by funext i n; rw [l2, k1]
      have e2 : (fun i => s.p.val e' i 0) = w.p := by funext i; rw [l3, k2]
      have e3 : (fun i => s.x.val e' i 0) = w.x0 := by funext i; rw [l1]
      rw [Scheme.decision, e1, e2, e3]
    have hr' : rep = true → ∀ c < s.N * s.M, ∀ i < d.np, s.p.val e' i c = s.p.val e' i 0 := fun _ c _ i _ => by rw [l3, l3, k2, k2]
    have hz' : ∀ v ∈ s.eq.vals e', |v| ≤ 0 := fun v hv => by rw [heq v hv, abs_zero]
    subst hdec
    have h2 := abs_le.mp (key φ hφ 0 e' le_rfl hz' hr' hw)
    have h3 := opt.min e' ⟨heq, hw, fun c => by
      have := abs_le.mp (key (G c) (hG c) 0 e' le_rfl hz' hr' hw)
      have := hc c
      linarith⟩
    have := abs_le.mp h1
    linarith

/-! ## Non-vacuity -/

/-- One constant for all `λ >= 0`: for `x' = p cos(t) - λ (x - p sin(t))` with the quadrature `x`, a parameter in [-1, 1] that a solver finds
with the equations solved up to `tol` and a cost within `η` of the least one brings the exact integral `p (1 - cos(T))` closest to `c` up to
`η` and the constant times the sum of both errors. -/
example (tau : List ℝ) (hnode : IsGauss tau ∨ IsRadau tau) (hpos : 0 < tau.length) (freshI : String → ℕ) (hI : 6 ≤ freshI "xdot") :
    ∃ C ≥ 0, ∀ (l c : ℝ) (t : List ℝ) (H : ℝ), 0 ≤ l → 2 ≤ t.length → nd t 0 = 0 →
      (∀ n < t.length - 1, nd t n < nd t (n + 1) ∧ nd t (n + 1) - nd t n ≤ H) → ∃ s,
      Scheme.new exFresh freshI (fun _ _ => .ok tau) idealCsFunction (odeUO 1 0 1 1 (followF l) fun env _ => env 0 0 0) t tau.length
        "legendre" none = .ok s ∧
      ∀ tol η env, 0 ≤ tol → NearOptimal s relaxU (missQuad c) (fun c : Empty => c.elim) tol η env → ∀ q, |q| ≤ 1 →
        let T := nd t s.N
        let e := T * H ^ tau.length + T * (T * H ^ tau.length + H ^ (tau.length + 1) + H ^ tau.length)
        |s.p.val env 0 0 * (1 - Real.cos T) - c| ≤ |q * (1 - Real.cos T) - c| +
          (C * (2 * e + (1 + T) * ((T + s.N) * tol)) + η) := by
  have hq : PosDefForm (fun _ _ => 1) 1 := by
    rintro v ⟨i, hi, hv⟩
    obtain rfl : i = 0 := by omega
    show 0 < ∑ i ∈ Finset.range 1, ∑ j ∈ Finset.range 1, _
    simp only [Finset.sum_range_one, one_mul]
    exact mul_self_pos.mpr hv
  obtain ⟨C, hC, key⟩ := C140_tolerance tau hnode (fun _ _ => 1) 1 hq
  refine ⟨C, hC, fun l c t H hl two h0 ht => ?_⟩
  obtain ⟨F, pre⟩ := odeU_pre freshI hI 1 0 1 1 (followF l) (fun env _ => env 0 0 0) (fun e e' hx hu hp ht => ⟨fun i hi => by
    simp [followF, hx 0 Nat.one_pos, hp 0 Nat.one_pos, ht], fun _ _ => hx 0 Nat.one_pos⟩) rfl t tau two hpos
  obtain ⟨s, hs⟩ := C26_constructed exFresh freshI _ _ _ _ _ _ _ _ _ _ _ _ false pre
  have b := pre.built hs
  have hN : s.N = t.length - 1 := b.N_eq
  have hM : s.M = tau.length := b.M_eq
  have hz := fun e => ode_residual freshI 1 (followF l) e
  refine ⟨s, hs, fun tol η env htol opt q hq => ?_⟩
  intro T e
  have hcos : ∀ (w : Decision) n, ContDiff ℝ n (fun τ => w.p 0 * Real.cos τ) := fun w n => contDiff_const.mul Real.contDiff_cos
  have hsin : ∀ (w : Decision) n, ContDiff ℝ n (fun τ => w.p 0 * Real.sin τ) := fun w n => contDiff_const.mul Real.contDiff_sin
  have k := (key exFresh freshI _ _ _ _ _ _ _ _ _ _ ⟨1, 1, false, fun env _ _ => followF l env 0⟩ _ false s idealCsFunction_spec pre hs (by decide) rfl rfl
    ⟨le_rfl, fun e i hi => by
      obtain rfl : i = 0 := by change i < 1 at hi; omega
      simp [odeRes, MXExpr.sym, followF], fun e e' h => by
      have h3 : e 3 0 0 = e' 3 0 0 := h.p 0 Nat.one_pos
      have h4 : e 4 0 0 = e' 4 0 0 := h.t
      show ∑ i ∈ Finset.range 1, ∑ j ∈ Finset.range 1, _ ≤ _
      simp only [Finset.sum_range_one, one_mul, odeUD, MXExpr.sym, followF]
      rw [h3, h4]
      nlinarith [mul_nonneg hl (sq_nonneg (e 0 0 0 - e' 0 0 0))]⟩
    ⟨fun ξ u p τ r => ⟨fun _ => p 0 * Real.cos τ - l * (ξ 0 - p 0 * Real.sin τ), fun _ => 0, fun e h => (hz e).mpr fun i hi => by
      have h1 : e (freshI "xdot") i 0 = _ := h.xdot i hi
      have h2 : e 0 0 0 = _ := h.x 0 Nat.one_pos
      have h3 : e 4 0 0 = _ := h.t
      have h4 : e 3 0 0 = _ := h.p 0 Nat.one_pos
      rw [h1, followF, h2, h3, h4]⟩, fun e₀ R => ⟨l, fun e e' r r' h h' _ δ _ hδ => ⟨fun i hi => by
        have h1 := (hz e).mp r i hi
        have h2 := (hz e').mp r' i hi
        have h3 : e 4 0 0 = e' 4 0 0 := (h.symm.trans h').t
        have h4 : e 3 0 0 = e' 3 0 0 := (h.symm.trans h').p 0 Nat.one_pos
        have hx : |e 0 0 0 - e' 0 0 0| ≤ δ := hδ 0 Nat.one_pos
        show |e (freshI "xdot") i 0 - e' (freshI "xdot") i 0| ≤ _
        rw [h1, h2, followF, followF, h3, h4, show ∀ a b c s : ℝ, c - l * (a - s) - (c - l * (b - s)) = -(l * (a - b)) from
          fun a b c s => by ring, abs_neg, abs_mul, abs_of_nonneg hl]
        exact mul_le_mul_of_nonneg_left hx hl, fun k hk => absurd hk (Nat.not_lt_zero _)⟩⟩⟩ 1 0 zero_le_one
    (fun e e' _ _ _ _ δ η hx _ k _ => by
      have : |e 0 0 0 - e' 0 0 0| ≤ δ := hx 0 Nat.one_pos
      simpa [odeUD] using this)
    H (fun n hn => ht n (by omega)) relaxU (fun w _ τ => w.p 0 * Real.sin τ) (fun w _ _ τ => w.p 0 * Real.cos τ) (fun _ _ _ _ => 0)
    (fun w _ τ => w.p 0 * -Real.cos τ) (fun w _ _ τ => w.p 0 * Real.sin τ) 1 1
    ⟨fun w _ => ⟨fun n _ i _ τ _ => ((Real.hasDerivAt_sin τ).const_mul (w.p 0)).hasDerivWithinAt, fun n _ τ _ e h => (hz e).mpr fun i hi => by
        have h1 : e (freshI "xdot") i 0 = _ := h.xdot i hi
        have h2 : e 0 0 0 = _ := h.x 0 Nat.one_pos
        have h3 : e 4 0 0 = _ := h.t
        have h4 : e 3 0 0 = _ := h.p 0 Nat.one_pos
        rw [h1, followF, h2, h3, h4]
        ring⟩, fun w hw i hi => by
        change i < 1 at hi
        obtain rfl : i = 0 := by omega
        rw [h0, hw.1]
        simp, fun w _ => ⟨fun n _ k _ τ _ => by
          have := ((Real.hasDerivAt_cos τ).neg).const_mul (w.p 0)
          rw [neg_neg] at this
          exact this.hasDerivWithinAt, fun n _ τ _ v e h k _ => h.x 0 Nat.one_pos⟩,
      fun w _ n _ i _ => (hcos w _).contDiffOn, fun w hw n hn i _ τ hτ => by
        rw [iteratedDerivWithin_eq_iteratedDeriv (uniqueDiffOn_Icc (ht n hn).1) (hcos w _).contDiffAt hτ,
          iteratedDeriv_const_mul_field, abs_mul]
        have h1 := (abs_iteratedDeriv_trig tau.length τ).2
        nlinarith [hw.2, abs_nonneg (w.p 0), abs_nonneg (iteratedDeriv tau.length Real.cos τ)],
      fun w _ n _ k _ => (hsin w _).contDiffOn, fun w hw n hn k _ τ hτ => by
        rw [iteratedDerivWithin_eq_iteratedDeriv (uniqueDiffOn_Icc (ht n hn).1) (hsin w _).contDiffAt hτ,
          iteratedDeriv_const_mul_field, abs_mul]
        have h1 := (abs_iteratedDeriv_trig tau.length τ).1
        nlinarith [hw.2, abs_nonneg (w.p 0), abs_nonneg (iteratedDeriv tau.length Real.sin τ)]⟩ zero_le_one zero_le_one Empty
    (missQuad c) (fun c : Empty => c.elim) 1 (missQuad_lipschitz _ _ _) (fun c => c.elim) tol η env htol opt (fun h => by cases h)).2.2 ⟨fun _ _ => 0, fun _ => q, fun _ => 0⟩
    ⟨rfl, hq⟩ (fun c => c.elim)
  simp only [exactCost, missQuad, Scheme.decision, h0, sub_zero, one_mul, hM, ← hN, Real.cos_zero] at k
  refine (le_of_eq ?_).trans (k.trans (le_of_eq ?_))
  · ring_nf
    simp only [T]
  · simp only [e, T]
    ring_nf

end CE
