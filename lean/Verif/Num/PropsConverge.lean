import Verif.Num.LemConverge

/-!
# Property C83: the collocation solution converges to the solution of the differential equation
-/

open Set

namespace CE

/-- `y` is a solution of the model on the grid `t`, with the inputs `u` (constant on the intervals) and the parameter `p`: on every
interval it has the derivative `f n`, and the residual of the model vanishes. -/
structure ExactSolution (d : DaeObj ℝ) (xdot res : MXExpr ℝ) (tdp_fun : Option (ℝ → Mat ℝ)) (t : List ℝ) (u : ℕ → ℕ → ℝ) (p : ℕ → ℝ)
    (y : ℕ → ℝ → ℝ) (f : ℕ → ℕ → ℝ → ℝ) : Prop where
  deriv : ∀ n < t.length - 1, ∀ i < d.nx, ∀ τ ∈ Icc (nd t n) (nd t (n + 1)),
    HasDerivWithinAt (y i) (f n i τ) (Icc (nd t n) (nd t (n + 1))) τ
  model : ∀ n < t.length - 1, ∀ τ ∈ Icc (nd t n) (nd t (n + 1)), ∀ e : Env ℝ, (∀ i < d.x.rows, xdot.val e i 0 = f n i τ) →
    (∀ i < d.x.rows, d.x.val e i 0 = y i τ) → (∀ i < d.u.rows, d.u.val e i 0 = u i n) →
    (∀ i < d.p.rows, d.p.val e i 0 = p i) → d.t.val e 0 0 = τ →
    (∀ g, tdp_fun = some g → ∀ i < d.tdp.rows, ∀ j < d.tdp.cols, d.tdp.val e i j = (g τ).e i j) → ResidualZero res e

section
variable (fresh freshI : String → ℕ) (casadiPoints : ℕ → String → Except PyErr (List ℝ))
    (csFunction : List (MXExpr ℝ) → List (MXExpr ℝ) → Except PyErr (CsFn ℝ))
    (dae : DaeObj ℝ) (t : List ℝ) (order : ℕ) (method : String) (tdp_fun : Option (ℝ → Mat ℝ))
    (d : DaeObj ℝ) (xdot res : MXExpr ℝ) (tau : List ℝ) (F : CsFn ℝ) (rep : Bool) (s : Scheme ℝ)

/-- The values of the model's inputs, parameter and time at the time `τ` of the interval `n`. -/
structure InputsAt (d : DaeObj ℝ) (tdp_fun : Option (ℝ → Mat ℝ)) (u : ℕ → ℕ → ℝ) (p : ℕ → ℝ) (n : ℕ) (τ : ℝ) (e : Env ℝ) : Prop where
  u : ∀ i < d.nu, d.u.val e i 0 = u i n
  p : ∀ i < d.np, d.p.val e i 0 = p i
  t : d.t.val e 0 0 = τ
  tdp : ∀ g, tdp_fun = some g → ∀ i < d.tdp.rows, ∀ j < d.tdp.cols, d.tdp.val e i j = (g τ).e i j

/-- The state derivatives of the collocation solution and of the exact solution at a collocation point are values of the right-hand
side for the same inputs, parameter and time. -/
theorem rate_pair (hcs : IsCsFunction csFunction)
    (pre : SchemePre freshI casadiPoints csFunction dae t order method tdp_fun d xdot res tau F)
    (b : s.Built fresh t order tdp_fun rep d xdot res tau F)
    (hf : [fresh "x", fresh "K", fresh "u", fresh "P"].Nodup) (ode : MXExpr ℝ) (L : ℝ) (lip : LipschitzOde d xdot res ode L)
    (h01 : ∀ k < tau.length, nd tau k ∈ Icc (0 : ℝ) 1) (ht : ∀ n < t.length - 1, nd t n ≤ nd t (n + 1)) (env : Env ℝ)
    (heq : ∀ v ∈ s.eq.vals env, v = 0) (y : ℕ → ℝ → ℝ) (f : ℕ → ℕ → ℝ → ℝ)
    (ex : ExactSolution d xdot res tdp_fun t (s.u.val env) (fun i => s.p.val env i 0) y f)
    (n j : ℕ) (hn : n < t.length - 1) (hj : j < order) :
    ∃ e1 e2 : Env ℝ,
      InputsAt d tdp_fun (s.u.val env) (fun i => s.p.val env i 0) n (nd t n + (nd t (n + 1) - nd t n) * nd tau j) e1 ∧
      InputsAt d tdp_fun (s.u.val env) (fun i => s.p.val env i 0) n (nd t n + (nd t (n + 1) - nd t n) * nd tau j) e2 ∧
      (∀ i < d.nx, d.x.val e1 i 0 = s.X.val env i (n * order + j)) ∧
      (∀ i < d.nx, d.x.val e2 i 0 = y i (nd t n + (nd t (n + 1) - nd t n) * nd tau j)) ∧
      (∀ i < d.nx, env (fresh "K") i (n * order + j) = ode.val e1 i 0) ∧
      ∀ i < d.nx, f n i (nd t n + (nd t (n + 1) - nd t n) * nd tau j) = ode.val e2 i 0 := by
  have hc : n * order + j < (t.length - 1) * order := block_lt hn hj
  have hnp : d.np = d.p.rows := by simp [DaeObj.np, MXExpr.numel, pre.p]
  simp only [List.nodup_cons, List.mem_cons, List.not_mem_nil, or_false, not_or, not_false_eq_true, List.nodup_nil, and_true] at hf
  obtain ⟨⟨f1, f2, f3⟩, ⟨f4, f5⟩, f6⟩ := hf
  set h := nd t (n + 1) - nd t n with hh
  set τ := nd t n + h * nd tau j with hτ
  have hh0 : 0 ≤ h := sub_nonneg.mpr (ht n hn)
  have hjl : j < tau.length := by rw [pre.len]; exact hj
  have hmem : τ ∈ Icc (nd t n) (nd t (n + 1)) := by
    have := h01 j hjl
    constructor
    · nlinarith [this.1]
    · have : h * nd tau j ≤ h := by nlinarith [this.2]
      rw [hτ]; linarith
  -- values of the symbols for the exact solution
  let env2 : Env ℝ := fun id i c => if id = fresh "x" then y i τ - h * (f n i τ * wA tau j j) else
    if id = fresh "K" then (if c = n * order + j then f n i τ else 0) else env id i c
  obtain ⟨e1, a1⟩ := exists_atPoint hcs pre b.toCore env hc
  obtain ⟨e2, a2⟩ := exists_atPoint hcs pre b.toCore env2 hc
  have hX2 : ∀ i, s.X.val env2 i (n * order + j) = y i τ := by
    intro i
    rw [b.X env2 i n j hn hj]
    have : ∑ k ∈ Finset.range order, env2 (fresh "K") i (n * order + k) * wA tau j k = f n i τ * wA tau j j := by
      rw [Finset.sum_eq_single_of_mem j (Finset.mem_range.mpr hj)]
      · simp [env2, Ne.symm f1]
      · intro k _ hk
        simp [env2, Ne.symm f1, hk]
    rw [this, ← hh]
    simp [env2]
  have htc : nd s.tc (n * order + j) = τ := b.tc n j hn hj
  obtain ⟨hcol, -, hpar⟩ := (Scheme.eq_zero_iff pre b env).mp heq
  have hu2 : ∀ i c, s.u.val env2 i c = s.u.val env i c := by
    intro i c
    rw [b.u]
    simp [MXExpr.sym, env2, Ne.symm f2, Ne.symm f4]
  have hp2 : ∀ i c, s.p.val env2 i c = s.p.val env i c := by
    intro i c
    rw [b.p]
    simp [MXExpr.sym, env2, Ne.symm f3, Ne.symm f5]
  have hp0 : ∀ i < d.p.rows, s.p.val env i (if rep then n * order + j else 0) = s.p.val env i 0 := by
    intro i hi
    cases rep
    · rfl
    · exact hpar rfl _ hc i (by rw [hnp]; exact hi)
  have r1 : ResidualZero res e1 := by
    intro i hi k hk
    rw [pre.wf.res_cols] at hk
    obtain rfl : k = 0 := by omega
    rw [← (a1.out hcs pre b.toCore hc).1 i hi]
    exact hcol _ hc i hi
  have hK2 : ∀ i < d.x.rows, xdot.val e2 i 0 = f n i τ := by
    intro i hi
    rw [a2.xdot i hi, b.Kd]
    simp [MXExpr.sym, env2, Ne.symm f1]
  have r2 : ResidualZero res e2 := by
    refine ex.model n hn τ hmem e2 hK2 (fun i hi => ?_) (fun i hi => ?_) (fun i hi => ?_) ?_ ?_
    · rw [a2.x i hi, hX2]
    · rw [a2.u i hi, b.M_eq, div_block hj, hu2]
    · rw [a2.p i hi, hp2, hp0 i hi]
    · rw [a2.t, htc]
    · intro g hg i hi k hk
      rw [a2.tdp g hg i hi k hk, htc]
  have hxr : ∀ i < d.nx, i < d.x.rows := fun i hi => by rw [← pre.wf.nx]; exact hi
  refine ⟨e1, e2, ⟨fun i hi => ?_, fun i hi => ?_, ?_, fun g hg i hi k hk => ?_⟩, ⟨fun i hi => ?_, fun i hi => ?_, ?_, fun g hg i hi k hk => ?_⟩,
    fun i hi => ?_, fun i hi => ?_, fun i hi => ?_, fun i hi => ?_⟩
  · rw [a1.u i (by rw [← pre.wf.nu]; exact hi), b.M_eq, div_block hj]
  · rw [a1.p i (by rw [← hnp]; exact hi), hp0 i (by rw [← hnp]; exact hi)]
  · rw [a1.t, htc]
  · rw [a1.tdp g hg i hi k hk, htc]
  · rw [a2.u i (by rw [← pre.wf.nu]; exact hi), b.M_eq, div_block hj, hu2]
  · rw [a2.p i (by rw [← hnp]; exact hi), hp2, hp0 i (by rw [← hnp]; exact hi)]
  · rw [a2.t, htc]
  · rw [a2.tdp g hg i hi k hk, htc]
  · rw [a1.x i (hxr i hi)]
  · rw [a2.x i (hxr i hi), hX2]
  · have g1 := (lip.explicit e1).mp r1 i hi
    rw [a1.xdot i (hxr i hi), b.Kd] at g1
    exact g1
  · have g2 := (lip.explicit e2).mp r2 i hi
    rw [hK2 i (hxr i hi)] at g2
    exact g2

/-- The error of the state derivative at a collocation point is at most `L` times the error of the state. -/
theorem rate_error (hcs : IsCsFunction csFunction)
    (pre : SchemePre freshI casadiPoints csFunction dae t order method tdp_fun d xdot res tau F)
    (b : s.Built fresh t order tdp_fun rep d xdot res tau F)
    (hf : [fresh "x", fresh "K", fresh "u", fresh "P"].Nodup) (ode : MXExpr ℝ) (L : ℝ) (lip : LipschitzOde d xdot res ode L)
    (h01 : ∀ k < tau.length, nd tau k ∈ Icc (0 : ℝ) 1) (ht : ∀ n < t.length - 1, nd t n ≤ nd t (n + 1)) (env : Env ℝ)
    (heq : ∀ v ∈ s.eq.vals env, v = 0) (y : ℕ → ℝ → ℝ) (f : ℕ → ℕ → ℝ → ℝ)
    (ex : ExactSolution d xdot res tdp_fun t (s.u.val env) (fun i => s.p.val env i 0) y f)
    (n j : ℕ) (hn : n < t.length - 1) (hj : j < order) (δ : ℝ)
    (hδ : ∀ i < d.nx, |s.X.val env i (n * order + j) - y i (nd t n + (nd t (n + 1) - nd t n) * nd tau j)| ≤ δ) :
    ∀ i < d.nx, |env (fresh "K") i (n * order + j) - f n i (nd t n + (nd t (n + 1) - nd t n) * nd tau j)| ≤ L * δ := by
  obtain ⟨e1, e2, i1, i2, x1, x2, k1, k2⟩ := rate_pair fresh freshI casadiPoints csFunction dae t order method tdp_fun d xdot res tau F rep s
    hcs pre b hf ode L lip h01 ht env heq y f ex n j hn hj
  intro i hi
  rw [k1 i hi, k2 i hi]
  refine lip.lipschitz e1 e2 (fun i hi => ?_) (fun i hi => ?_) ?_ ?_ δ (fun i hi => ?_) i hi
  · rw [i1.u i hi, i2.u i hi]
  · rw [i1.p i hi, i2.p i hi]
  · rw [i1.t, i2.t]
  · intro i hi k hk
    cases htd : tdp_fun with
    | none =>
      have := pre.tdpFun
      rw [htd] at this
      first
        | exact absurd hi (by simp_all)
        | exact absurd hk (by simp_all)
    | some g => rw [i1.tdp g htd i hi k hk, i2.tdp g htd i hi k hk]
  · rw [x1 i hi, x2 i hi]
    exact hδ i hi

/-- The errors of all steps, if the errors of the state derivatives at the collocation points are at most `L` times the errors of the
states there. -/
theorem scheme_error (pre : SchemePre freshI casadiPoints csFunction dae t order method tdp_fun d xdot res tau F)
    (b : s.Built fresh t order tdp_fun rep d xdot res tau F) (L θ : ℝ) (hL : 0 ≤ L)
    (hd : tau.Nodup) (h01 : ∀ k < tau.length, nd tau k ∈ Icc (0 : ℝ) 1)
    (T : ButcherTableau ℝ) (hT : butcherTableuForCollocationPoints tau = .ok T) (α β H : ℝ)
    (hα : ∀ j < s.M, ∑ k ∈ Finset.range s.M, |T.A.e [j, k]| ≤ α) (hβ : ∑ k ∈ Finset.range s.M, |T.b.e [k]| ≤ β)
    (ht : ∀ n < s.N, nd t n ≤ nd t (n + 1) ∧ nd t (n + 1) - nd t n ≤ H) (hθ : θ < 1) (hstep : L * (H * α) ≤ θ)
    (env : Env ℝ) (heq : ∀ v ∈ s.eq.vals env, v = 0)
    (y : ℕ → ℝ → ℝ) (f : ℕ → ℕ → ℝ → ℝ)
    (hderiv : ∀ n < t.length - 1, ∀ i < d.nx, ∀ τ ∈ Icc (nd t n) (nd t (n + 1)),
      HasDerivWithinAt (y i) (f n i τ) (Icc (nd t n) (nd t (n + 1))) τ)
    (hrate : ∀ n j, n < t.length - 1 → j < order → ∀ δ,
      (∀ i < d.nx, |s.X.val env i (n * order + j) - y i (nd t n + (nd t (n + 1) - nd t n) * nd tau j)| ≤ δ) →
      ∀ i < d.nx, |env (fresh "K") i (n * order + j) - f n i (nd t n + (nd t (n + 1) - nd t n) * nd tau j)| ≤ L * δ) (B ε : ℝ)
    (hsm : ∀ n < s.N, ∀ i < d.nx, ContDiffOn ℝ s.M (f n i) (Icc (nd t n) (nd t (n + 1))))
    (hB : ∀ n < s.N, ∀ i < d.nx, ∀ τ ∈ Icc (nd t n) (nd t (n + 1)),
      |iteratedDerivWithin s.M (f n i) (Icc (nd t n) (nd t (n + 1))) τ| ≤ B) (hB0 : 0 ≤ B)
    (hε : 0 ≤ ε) (h0 : ∀ i < d.nx, |s.x.val env i 0 - y i (nd t 0)| ≤ ε) :
    let Λ := β * L / (1 - θ)
    let D := B * H ^ s.M / ((s.M - 1).factorial : ℝ)
    let bound := fun n => Real.exp (Λ * (nd t n - nd t 0)) * (ε + (nd t n - nd t 0) * ((1 + β + Λ * H * (1 + α)) * D))
    (∀ n ≤ s.N, ∀ i < d.nx, |s.x.val env i n - y i (nd t n)| ≤ bound n) ∧
    ∀ n < s.N, ∀ j < s.M, ∀ i < d.nx,
      |s.X.val env i (n * s.M + j) - y i (nd s.tc (n * s.M + j))| ≤ (bound n + H * (1 + α) * D) / (1 - θ) := by
  intro Λ D bound
  have hpos := pre.pos
  have hA : ∀ i j, T.A.e [i, j] = wA tau i j := by
    intro i j
    rw [butcher_ok] at hT; cases hT
    rfl
  have hb : ∀ k < order, T.b.e [k] = wb tau k := by
    intro k hk
    rw [butcher_ok] at hT; cases hT
    simp [NdArray.vec, nd, List.getD_eq_getElem?_getD, pre.len, hk, wb]
  have hN := b.N_eq
  have hM := b.M_eq
  have hlen := pre.len
  rw [hM] at hα hβ hsm hB
  have hα' : ∀ j < tau.length, ∑ k ∈ Finset.range tau.length, |wA tau j k| ≤ α := by
    intro j hj
    rw [hlen] at hj ⊢
    simpa only [hA] using hα j hj
  have hβ' : ∑ k ∈ Finset.range tau.length, |wb tau k| ≤ β := by
    rw [hlen]
    refine le_trans (le_of_eq (Finset.sum_congr rfl fun k hk => ?_)) hβ
    rw [hb k (Finset.mem_range.mp hk)]
  have hβ0 : 0 ≤ β := (Finset.sum_nonneg fun _ _ => abs_nonneg _).trans hβ
  have hα0 : 0 ≤ α := (Finset.sum_nonneg fun _ _ => abs_nonneg _).trans (hα 0 hpos)
  have hH0 : 0 ≤ H := by
    have := ht 0 (by rw [hN]; have := pre.two; omega)
    linarith [this.1, this.2]
  have h1θ : 0 < 1 - θ := by linarith
  have hΛ : 0 ≤ Λ := div_nonneg (mul_nonneg hβ0 hL) h1θ.le
  have hD : 0 ≤ D := by positivity
  have hDo : D = B * H ^ order / ((order - 1).factorial : ℝ) := by simp only [D, hM]
  -- one step
  have step : ∀ n < s.N, ∀ εn, 0 ≤ εn → (∀ i < d.nx, |s.x.val env i n - y i (nd t n)| ≤ εn) →
      (∀ j < order, ∀ i < d.nx, |s.X.val env i (n * order + j) - y i (nd s.tc (n * order + j))| ≤ (εn + H * (1 + α) * D) / (1 - θ)) ∧
      ∀ i < d.nx, |s.x.val env i (n + 1) - y i (nd t (n + 1))| ≤ (1 + (nd t (n + 1) - nd t n) * Λ) * εn +
        (nd t (n + 1) - nd t n) * ((1 + β + Λ * H * (1 + α)) * D) := by
    intro n hn εn hεn hx
    have hn' : n < t.length - 1 := by rw [← hN]; exact hn
    obtain ⟨t1, t2⟩ := ht n hn
    set h := nd t (n + 1) - nd t n with hh
    have hh0 : 0 ≤ h := sub_nonneg.mpr t1
    have hadd : nd t n + h = nd t (n + 1) := by rw [hh]; ring
    have hcont := ((Scheme.eq_zero_iff pre b env).mp heq).2.1 n hn'
    have key := step_error hd (by rw [hlen]; exact hpos) h01 (a := nd t n) (h := h) (B := B) (L := L) (θ := θ) (α := α) (β := β) (ε := εn)
      hh0 hL hθ hεn d.nx hα' hβ' (le_trans (mul_le_mul_of_nonneg_left (mul_le_mul_of_nonneg_right t2 hα0) hL) hstep)
      (y := y) (f := f n) (by
        intro i hi τ hτ
        have := hderiv n hn' i hi τ (by rw [← hadd]; exact hτ)
        rw [← hadd] at this
        exact this)
      (by intro i hi; rw [hlen, hadd]; exact hsm n hn i hi) (by intro i hi; rw [hlen, hadd]; exact hB n hn i hi)
      (x := fun i => s.x.val env i n) (x' := fun i => s.x.val env i (n + 1)) (X := fun i j => s.X.val env i (n * order + j))
      (k := fun i j => env (fresh "K") i (n * order + j))
      (by
        intro i hi j hj
        rw [hlen] at hj ⊢
        rw [b.X env i n j hn' hj, b.x]
        rfl)
      (by
        intro i hi
        have := hcont i hi
        rw [b.cont env i n hn', sub_eq_zero] at this
        rw [hlen, b.x]
        exact this.symm)
      (by
        intro j hj δ hδ
        rw [hlen] at hj
        exact hrate n j hn' hj δ hδ)
      hx
    rw [hlen] at key
    obtain ⟨k1, k2⟩ := key
    have hDh : B * h ^ order / ((order - 1).factorial : ℝ) ≤ D := by
      rw [hDo]
      have : h ^ order ≤ H ^ order := pow_le_pow_left₀ hh0 t2 _
      gcongr
    have hDh0 : 0 ≤ B * h ^ order / ((order - 1).factorial : ℝ) := by positivity
    have hE : (εn + h * ((1 + α) * (B * h ^ order / ((order - 1).factorial : ℝ)))) / (1 - θ) ≤ (εn + H * (1 + α) * D) / (1 - θ) := by
      rw [mul_assoc H]
      gcongr
    refine ⟨fun j hj i hi => ?_, fun i hi => ?_⟩
    · rw [b.tc n j hn' hj]
      exact (k1 i hi j hj).trans hE
    · have := k2 i hi
      rw [hadd] at this
      refine this.trans ?_
      have e1 : (1 + h * Λ) * εn + h * ((1 + β + Λ * H * (1 + α)) * D) =
          εn + h * (β * (L * ((εn + H * (1 + α) * D) / (1 - θ)))) + h * ((1 + β) * D) := by
        simp only [Λ]
        field_simp
        ring
      rw [e1]
      gcongr
  -- all steps
  have gron := gronwall_grid (fun n => nd t n) s.N (fun n hn => (ht n hn).1)
    (fun n => Nat.rec ε (fun n e => (1 + (nd t (n + 1) - nd t n) * Λ) * e + (nd t (n + 1) - nd t n) * ((1 + β + Λ * H * (1 + α)) * D)) n)
    Λ ((1 + β + Λ * H * (1 + α)) * D) hΛ (by positivity) hε (fun n hn => le_rfl)
  have err : ∀ n ≤ s.N, 0 ≤ (Nat.rec ε (fun n e => (1 + (nd t (n + 1) - nd t n) * Λ) * e +
      (nd t (n + 1) - nd t n) * ((1 + β + Λ * H * (1 + α)) * D)) n : ℝ) ∧ ∀ i < d.nx, |s.x.val env i n - y i (nd t n)| ≤
      (Nat.rec ε (fun n e => (1 + (nd t (n + 1) - nd t n) * Λ) * e + (nd t (n + 1) - nd t n) * ((1 + β + Λ * H * (1 + α)) * D)) n : ℝ) := by
    intro n
    induction n with
    | zero => intro _; exact ⟨hε, h0⟩
    | succ n ih =>
      intro hn
      obtain ⟨i1, i2⟩ := ih (by omega)
      have hh0 : 0 ≤ nd t (n + 1) - nd t n := sub_nonneg.mpr (ht n (by omega)).1
      exact ⟨by positivity, (step n (by omega) _ i1 i2).2⟩
  refine ⟨fun n hn i hi => ((err n hn).2 i hi).trans (gron n hn).2, fun n hn j hj i hi => ?_⟩
  rw [hM] at hj ⊢
  have hb0 : 0 ≤ bound n := by
    have := (gron n hn.le).1
    have : 0 ≤ nd t n - nd t 0 := sub_nonneg.mpr this
    positivity
  exact (step n hn (bound n) hb0 (fun i hi => ((err n hn.le).2 i hi).trans (gron n hn.le).2)).1 j hj i hi

/-- **C83** (convergence) For an ordinary differential equation with Lipschitz right-hand side, nodes in [0,1] and steps that are not
longer than `H`, the distance of every solution of the collocation equations from the exact solution with the same inputs and
parameter is bounded at the grid points and the collocation points by an explicit constant times `H` to the number of nodes, plus
the propagated error of the initial state. -/
theorem C83_convergence (hcs : IsCsFunction csFunction)
    (pre : SchemePre freshI casadiPoints csFunction dae t order method tdp_fun d xdot res tau F)
    (hs : Scheme.new fresh freshI casadiPoints csFunction dae t order method tdp_fun rep = .ok s)
    (hf : [fresh "x", fresh "K", fresh "u", fresh "P"].Nodup) (ode : MXExpr ℝ) (L θ : ℝ) (lip : LipschitzOde d xdot res ode L)
    (hd : tau.Nodup) (h01 : ∀ k < tau.length, nd tau k ∈ Icc (0 : ℝ) 1)
    (T : ButcherTableau ℝ) (hT : butcherTableuForCollocationPoints tau = .ok T) (α β H : ℝ)
    (hα : ∀ j < s.M, ∑ k ∈ Finset.range s.M, |T.A.e [j, k]| ≤ α) (hβ : ∑ k ∈ Finset.range s.M, |T.b.e [k]| ≤ β)
    (ht : ∀ n < s.N, nd t n ≤ nd t (n + 1) ∧ nd t (n + 1) - nd t n ≤ H) (hθ : θ < 1) (hstep : L * (H * α) ≤ θ)
    (env : Env ℝ) (heq : ∀ v ∈ s.eq.vals env, v = 0)
    (y : ℕ → ℝ → ℝ) (f : ℕ → ℕ → ℝ → ℝ)
    (ex : ExactSolution d xdot res tdp_fun t (s.u.val env) (fun i => s.p.val env i 0) y f) (B ε : ℝ)
    (hsm : ∀ n < s.N, ∀ i < d.nx, ContDiffOn ℝ s.M (f n i) (Icc (nd t n) (nd t (n + 1))))
    (hB : ∀ n < s.N, ∀ i < d.nx, ∀ τ ∈ Icc (nd t n) (nd t (n + 1)),
      |iteratedDerivWithin s.M (f n i) (Icc (nd t n) (nd t (n + 1))) τ| ≤ B) (hB0 : 0 ≤ B)
    (hε : 0 ≤ ε) (h0 : ∀ i < d.nx, |s.x.val env i 0 - y i (nd t 0)| ≤ ε) :
    let Λ := β * L / (1 - θ)
    let D := B * H ^ s.M / ((s.M - 1).factorial : ℝ)
    let bound := fun n => Real.exp (Λ * (nd t n - nd t 0)) * (ε + (nd t n - nd t 0) * ((1 + β + Λ * H * (1 + α)) * D))
    (∀ n ≤ s.N, ∀ i < d.nx, |s.x.val env i n - y i (nd t n)| ≤ bound n) ∧
    ∀ n < s.N, ∀ j < s.M, ∀ i < d.nx,
      |s.X.val env i (n * s.M + j) - y i (nd s.tc (n * s.M + j))| ≤ (bound n + H * (1 + α) * D) / (1 - θ) := by
  have b := pre.built hs
  exact scheme_error fresh freshI casadiPoints csFunction dae t order method tdp_fun d xdot res tau F rep s pre b L θ lip.nonneg hd h01 T hT
    α β H hα hβ ht hθ hstep env heq y f ex.deriv (fun n j hn hj => rate_error fresh freshI casadiPoints csFunction dae t order method
      tdp_fun d xdot res tau F rep s hcs pre b hf ode L lip h01 (fun n hn => (ht n (by rw [b.N_eq]; exact hn)).1) env heq y f ex n j hn hj)
    B ε hsm hB hB0 hε h0
end

/-- `exp(-t)` solves the example `x' = -x`, and all derivatives of its derivative are bounded by 1 for positive times. -/
theorem decay_exact (freshI : String → ℕ) (t : List ℝ) (M : ℕ) (u : ℕ → ℕ → ℝ) (p : ℕ → ℝ)
    (ht : ∀ n < t.length - 1, 0 ≤ nd t n ∧ nd t n < nd t (n + 1)) :
    ExactSolution (decayD freshI) (.sym (freshI "xdot") 1) (decayRes freshI) none t u p (fun _ τ => Real.exp (-τ))
      (fun _ _ τ => -Real.exp (-τ)) ∧
    (∀ n < t.length - 1, ContDiffOn ℝ M (fun τ => -Real.exp (-τ)) (Icc (nd t n) (nd t (n + 1)))) ∧
    ∀ n < t.length - 1, ∀ τ ∈ Icc (nd t n) (nd t (n + 1)),
      |iteratedDerivWithin M (fun τ => -Real.exp (-τ)) (Icc (nd t n) (nd t (n + 1))) τ| ≤ 1 := by
  have hsmooth : ContDiff ℝ M (fun τ : ℝ => -Real.exp (-τ)) := (Real.contDiff_exp.comp contDiff_neg).neg
  refine ⟨⟨fun n _ i _ τ _ => ?_, fun n _ τ _ e hxd hx _ _ _ _ => ?_⟩, fun n _ => hsmooth.contDiffOn, fun n hn τ hτ => ?_⟩
  · have := ((hasDerivAt_neg τ).exp).hasDerivWithinAt (s := Icc (nd t n) (nd t (n + 1)))
    simpa using this
  · intro i hi j hj
    change i < 1 at hi
    change j < 1 at hj
    obtain rfl : i = 0 := by omega
    obtain rfl : j = 0 := by omega
    have h1 := hxd 0 Nat.one_pos
    have h2 := hx 0 Nat.one_pos
    simp only [decayD, MXExpr.sym] at h1 h2
    simp only [decayRes, Nat.zero_lt_one, if_true]
    rw [h1, h2]
    ring
  · rw [iteratedDerivWithin_eq_iteratedDeriv (uniqueDiffOn_Icc (ht n hn).2) hsmooth.contDiffAt hτ]
    have e1 : (fun τ : ℝ => -Real.exp (-τ)) = -fun τ => Real.exp (-1 * τ) := by funext; simp
    rw [e1, iteratedDeriv_neg, iteratedDeriv_exp_const_mul, abs_neg, abs_mul, abs_pow, abs_neg, abs_one, one_pow, one_mul, Real.abs_exp]
    refine Real.exp_le_one_iff.mpr ?_
    have := (ht n hn).1
    linarith [hτ.1]

/-- Midpoint rule for `x' = -x`, `x(0) = 1` with steps of at most `H <= 1`: the solutions of the collocation equations exist and differ
from `exp(-t)` at most by `5*t*exp(2*t)*H`. -/
example (freshI : String → ℕ) (hI : 7 ≤ freshI "xdot") (t : List ℝ) (two : 2 ≤ t.length) (H : ℝ) (hH : H ≤ 1) (h0 : nd t 0 = 0)
    (ht : ∀ n < t.length - 1, nd t n < nd t (n + 1) ∧ nd t (n + 1) - nd t n ≤ H) : ∃ s,
    Scheme.new exFresh freshI (fun _ _ => .ok [1 / 2]) idealCsFunction decayO t 1 "legendre" none = .ok s ∧ s.N = t.length - 1 ∧
    (∃ env, (∀ v ∈ s.eq.vals env, v = 0) ∧ s.x.val env 0 0 = 1) ∧
    ∀ env, (∀ v ∈ s.eq.vals env, v = 0) → s.x.val env 0 0 = 1 → ∀ n ≤ s.N,
      |s.x.val env 0 n - Real.exp (-nd t n)| ≤ Real.exp (2 * nd t n) * (nd t n * (5 * H)) := by
  obtain ⟨F, pre⟩ := decay_pre freshI hI t [1 / 2] two (by simp)
  obtain ⟨s, hs⟩ := C26_constructed exFresh freshI _ _ _ _ _ _ _ _ _ _ _ _ false pre
  have b := pre.built hs
  have hN : s.N = t.length - 1 := b.N_eq
  have hM : s.M = 1 := b.M_eq
  obtain ⟨T, hT, hA, hB, -⟩ := C09_butcher_consistent ([1 / 2] : List ℝ) (by simp) (by simp)
  obtain ⟨T', hT', -, -, -, hc, -⟩ := C08_butcher_exact ([1 / 2] : List ℝ) (by simp)
  rw [hT] at hT'
  cases hT'
  have hA0 : T.A.e [0, 0] = 1 / 2 := by
    have := hA 0 (by simp)
    rw [hc 0 (by simp)] at this
    simpa using this
  have hB0 : T.b.e [0] = 1 := by simpa using hB
  have hf : [exFresh "x", exFresh "K", exFresh "u", exFresh "P"].Nodup := by decide
  have hpos : ∀ n ≤ s.N, 0 ≤ nd t n := by
    intro n
    induction n with
    | zero => intro _; exact h0.ge
    | succ n ih => intro hn; exact (ih (by omega)).trans (ht n (by omega)).1.le
  have hα : ∀ j < s.M, ∑ k ∈ Finset.range s.M, |T.A.e [j, k]| ≤ 1 / 2 := by
    intro j hj
    rw [hM] at hj ⊢
    obtain rfl : j = 0 := by omega
    rw [Finset.sum_range_one, hA0]
    norm_num
  have hβ : ∑ k ∈ Finset.range s.M, |T.b.e [k]| ≤ 1 := by
    rw [hM, Finset.sum_range_one, hB0, abs_one]
  refine ⟨s, hs, hN, ?_, fun env heq hx n hn => ?_⟩
  · obtain ⟨env, heq, hx, -, -⟩ := C78_exists exFresh freshI _ _ _ _ _ _ _ _ _ _ _ _ false s idealCsFunction_spec pre hs hf _ 1 (1 / 2)
      (decay_lipschitz freshI) (by norm_num) T hT (fun n hn j hj => by
        have h1 := hα j hj
        have h2 := ht n (by omega)
        rw [one_mul, abs_of_pos (by linarith)]
        calc _ ≤ (1 : ℝ) * (1 / 2) := mul_le_mul (by linarith) h1 (Finset.sum_nonneg fun _ _ => abs_nonneg _) zero_le_one
          _ = 1 / 2 := one_mul _) (fun _ _ _ => 0) (fun h => by cases h) (fun _ => 1)
    exact ⟨env, heq, hx 0⟩
  · obtain ⟨ex, sm, bd⟩ := decay_exact freshI t 1 (s.u.val env) (fun i => s.p.val env i 0)
      (fun n hn => ⟨hpos n (by omega), (ht n (by omega)).1⟩)
    have hH0 : 0 ≤ H := by
      have := ht 0 (by omega)
      linarith [this.1, this.2]
    have := (C83_convergence exFresh freshI _ _ _ _ _ _ _ _ _ _ _ _ false s idealCsFunction_spec pre hs hf _ 1 (1 / 2)
      (decay_lipschitz freshI) (by simp) (by intro k hk; obtain rfl : k = 0 := (by simpa using hk); norm_num [nd]) T hT (1 / 2) 1 H hα hβ
      (fun n hn => ⟨(ht n (by omega)).1.le, (ht n (by omega)).2⟩) (by norm_num) (by linarith) env heq _ _ ex 1 0
      (fun n hn i _ => by rw [hM]; exact sm n (by omega)) (fun n hn i _ => by rw [hM]; exact bd n (by omega)) zero_le_one le_rfl (by
        intro i hi
        obtain rfl : i = 0 := by change i < 1 at hi; omega
        rw [hx, h0]
        simp)).1 n hn 0 Nat.one_pos
    refine this.trans ?_
    beta_reduce
    rw [h0, hM, sub_zero]
    have hp := hpos n hn
    have e2 : (1 : ℝ) * 1 / (1 - 1 / 2) = 2 := by norm_num
    rw [e2]
    have : (1 + 1 + 2 * H * (1 + 1 / 2)) * (1 * H ^ 1 / ((1 - 1).factorial : ℝ)) ≤ 5 * H := by
      simp only [Nat.sub_self, Nat.factorial_zero, Nat.cast_one, div_one, pow_one, one_mul]
      nlinarith
    rw [zero_add]
    gcongr

end CE
