import Verif.Num.LemStiff2
import Verif.Num.PropsContract
import Verif.Num.PropsIndex
import Verif.Num.PropsIntegrator
import Mathlib.Analysis.SpecialFunctions.Trigonometric.Deriv

/-!
# Property C96: convergence for contractive models, with constants that do not depend on the model
-/

open Set

namespace CE

/-- **C96** (norm of the form) Gauss or Radau nodes and a positive definite form determine a constant such that, for every model that is
contractive with respect to the form, on every increasing grid with steps of at most `H`, every solution of the collocation equations
satisfies: the distance of the states from those of a solution of the model whose derivative has an `M`-th derivative (`M` nodes) of at
most `B` is at most the initial distance plus the constant times `B*(t-t0)*H^M`. The constant depends neither on the model, nor on a Lipschitz
constant of it, and the steps need not be small. -/
theorem C96_norm (tau : List ℝ) (hnode : IsGauss tau ∨ IsRadau tau) (S : ℕ → ℕ → ℝ) (m : ℕ) (hpd : PosDefForm S m) :
    ∃ C ≥ 0, ∀ (fresh freshI : String → ℕ) (casadiPoints : ℕ → String → Except PyErr (List ℝ))
      (csFunction : List (MXExpr ℝ) → List (MXExpr ℝ) → Except PyErr (CsFn ℝ))
      (dae : DaeObj ℝ) (t : List ℝ) (order : ℕ) (method : String) (tdp_fun : Option (ℝ → Mat ℝ))
      (d : DaeObj ℝ) (xdot res : MXExpr ℝ) (F : CsFn ℝ) (rep : Bool) (s : Scheme ℝ), IsCsFunction csFunction →
      SchemePre freshI casadiPoints csFunction dae t order method tdp_fun d xdot res tau F →
      Scheme.new fresh freshI casadiPoints csFunction dae t order method tdp_fun rep = .ok s →
      [fresh "x", fresh "K", fresh "Z", fresh "u", fresh "P"].Nodup → d.nx = m → Contractive d xdot res S →
      ∀ H, (∀ n < s.N, nd t n < nd t (n + 1) ∧ nd t (n + 1) - nd t n ≤ H) →
      ∀ env, (∀ v ∈ s.eq.vals env, v = 0) →
      ∀ (y : ℕ → ℝ → ℝ) (f ζ : ℕ → ℕ → ℝ → ℝ), ExactDae d xdot res tdp_fun t (s.u.val env) (fun i => s.p.val env i 0) y f ζ →
      ∀ B, 0 ≤ B → (∀ n < s.N, ∀ i < m, ContDiffOn ℝ s.M (f n i) (Icc (nd t n) (nd t (n + 1)))) →
      (∀ n < s.N, ∀ i < m, ∀ τ ∈ Icc (nd t n) (nd t (n + 1)), |iteratedDerivWithin s.M (f n i) (Icc (nd t n) (nd t (n + 1))) τ| ≤ B) →
      let bound := fun n => qnorm S m (fun i => s.x.val env i 0 - y i (nd t 0)) + C * (B * (nd t n - nd t 0) * H ^ s.M)
      (∀ n ≤ s.N, qnorm S m (fun i => s.x.val env i n - y i (nd t n)) ≤ bound n) ∧
      ∀ n < s.N, ∀ j < s.M, qnorm S m (fun i => s.X.val env i (n * s.M + j) - y i (nd s.tc (n * s.M + j))) ≤
        C * (bound n + B * H ^ (s.M + 1)) := by
  rcases Nat.eq_zero_or_pos tau.length with h0 | hpos
  · refine ⟨0, le_rfl, fun fresh freshI casadiPoints csFunction dae t order method tdp_fun d xdot res F rep s _ pre => ?_⟩
    have h1 := pre.pos
    rw [← pre.len, h0] at h1
    exact absurd h1 (lt_irrefl _)
  obtain ⟨C, hC, hint⟩ := interval_stiff tau hnode hpos S m hpd
  refine ⟨C, hC, fun fresh freshI casadiPoints csFunction dae t order method tdp_fun d xdot res F rep s hcs pre hs hf hm law H ht env heq
    y f ζ ex B hB0 hsm hB => ?_⟩
  have b := pre.built hs
  have hnp : d.np = d.p.rows := by simp [DaeObj.np, MXExpr.numel, pre.p]
  have hlen := pre.len
  subst hlen
  have hN := b.N_eq
  have hM := b.M_eq
  rw [hN] at ht hsm hB
  rw [hM] at hsm hB
  rw [hN, hM]
  obtain ⟨r, cont, hpar⟩ := (Scheme.eq_zero_iff pre b env).mp heq
  have hx0 : ∀ i n, s.x.val env i n = env (fresh "x") i n := fun i n => by rw [b.x]; rfl
  have key : ∀ n < t.length - 1,
      qnorm S m (fun i => s.x.val env i (n + 1) - y i (nd t (n + 1))) ≤
        qnorm S m (fun i => s.x.val env i n - y i (nd t n)) + C * (B * (nd t (n + 1) - nd t n) ^ (tau.length + 1)) ∧
      ∀ j < tau.length, qnorm S m (fun i => s.X.val env i (n * tau.length + j) - y i (nd s.tc (n * tau.length + j))) ≤
        C * (qnorm S m (fun i => s.x.val env i n - y i (nd t n)) + B * (nd t (n + 1) - nd t n) ^ (tau.length + 1)) := by
    intro n hn
    have hX : ∀ j < tau.length, ∀ i, s.X.val env i (n * tau.length + j) = env (fresh "x") i n +
        (nd t (n + 1) - nd t n) * stageSum tau (fun i l => env (fresh "K") i (n * tau.length + l)) i j :=
      fun j hj i => b.X env i n j hn hj
    have htc : ∀ j < tau.length, nd s.tc (n * tau.length + j) = nd t n + (nd t (n + 1) - nd t n) * nd tau j := fun j hj => b.tc n j hn hj
    obtain ⟨k1, k2⟩ := hint (nd t n) (nd t (n + 1)) B y (f n) (fun i => env (fresh "x") i n)
      (fun i l => env (fresh "K") i (n * tau.length + l)) (ht n hn).1 hB0 (fun i hi => ex.deriv n hn i (by rw [hm]; exact hi))
      (hsm n hn) (hB n hn) (by
        intro j hj
        have hc : n * tau.length + j < (t.length - 1) * tau.length := block_lt hn hj
        obtain ⟨e1, a1⟩ := exists_atPoint hcs pre b.toCore env hc
        have v1 := a1.vals pre b.toCore
        rw [div_block hj] at v1
        have hmem : nd s.tc (n * tau.length + j) ∈ Icc (nd t n) (nd t (n + 1)) := by
          obtain ⟨-, hin, -⟩ := C94_inside tau hnode
          obtain ⟨g1, g2⟩ := hin (nd tau j) (by rw [nd_eq_getElem hj]; exact List.getElem_mem hj)
          have := (ht n hn).1
          rw [htc j hj]
          constructor <;> nlinarith
        obtain ⟨e2, v2⟩ := exists_pointVals fresh freshI casadiPoints csFunction dae t tau.length method tdp_fun d xdot res tau F rep s
          hcs pre b hf env hn hj (fun i => f n i (nd s.tc (n * tau.length + j))) (fun i => y i (nd s.tc (n * tau.length + j)))
          (fun k => ζ n k (nd s.tc (n * tau.length + j)))
        have hr2 := ex.model n hn _ hmem e2 ⟨v2.xdot, v2.x, v2.z, fun i hi => by rw [v2.u i hi, b.u]; rfl, fun i hi => by
          rw [v2.p i hi]
          cases hr : rep
          · rw [b.p]; rfl
          · have := hpar hr _ hc i (by rw [hnp]; exact hi)
            rw [b.p] at this ⊢
            exact this, v2.t, v2.tdp⟩
        have hr1 := (residual_iff fresh freshI casadiPoints csFunction dae t tau.length method tdp_fun d xdot res tau F rep s hcs pre b hc
          a1).mp (r _ hc)
        have h0 := law e1 e2 hr1 hr2 (fun i hi => by
            have hi' : i < d.u.rows := by rw [← pre.wf.nu]; exact hi
            rw [v1.u i hi', v2.u i hi'])
          (fun i hi => by
            have hi' : i < d.p.rows := hnp ▸ hi
            rw [v1.p i hi', v2.p i hi'])
          (by rw [v1.t, v2.t]) (fun i hi l hl => by rw [v1.tdp i hi l hl, v2.tdp i hi l hl])
        rw [hm] at h0
        refine le_trans (le_of_eq ?_) h0
        have hrow : ∀ i < m, i < d.x.rows := fun i hi => by rw [← pre.wf.nx, hm]; exact hi
        refine Finset.sum_congr rfl fun i hi => Finset.sum_congr rfl fun l hl => ?_
        have hi := hrow i (Finset.mem_range.mp hi)
        have hl := hrow l (Finset.mem_range.mp hl)
        rw [v1.xdot i hi, v1.xdot l hl, v1.x i hi, v1.x l hl, v2.xdot i hi, v2.xdot l hl, v2.x i hi, v2.x l hl, hX j hj, hX j hj,
          htc j hj])
    constructor
    · simp only [hx0]
      refine le_trans (le_of_eq (qnorm_congr fun i hi => ?_)) k1
      have := cont n hn i (by rw [hm]; exact hi)
      rw [b.cont _ i n hn, sub_eq_zero] at this
      rw [← this]
    · intro j hj
      have := k2 j hj
      simp only [hx0]
      refine le_trans (le_of_eq (qnorm_congr fun i _ => ?_)) this
      rw [hX j hj, htc j hj]
  have hpow : ∀ n < t.length - 1, (nd t (n + 1) - nd t n) ^ tau.length ≤ H ^ tau.length := fun n hn =>
    pow_le_pow_left₀ (sub_nonneg.mpr (ht n hn).1.le) (ht n hn).2 _
  have states : ∀ n ≤ t.length - 1, qnorm S m (fun i => s.x.val env i n - y i (nd t n)) ≤
      qnorm S m (fun i => s.x.val env i 0 - y i (nd t 0)) + C * (B * (nd t n - nd t 0) * H ^ tau.length) := by
    intro n
    induction n with
    | zero => intro _; simp
    | succ n ih =>
      intro hn
      have h1 := (key n (by omega)).1
      have h2 := ih (by omega)
      have h3 := hpow n (by omega)
      have h4 : (nd t (n + 1) - nd t n) ^ (tau.length + 1) ≤ H ^ tau.length * (nd t (n + 1) - nd t n) := by
        rw [pow_succ]
        exact mul_le_mul_of_nonneg_right h3 (sub_nonneg.mpr (ht n (by omega)).1.le)
      have h5 : C * (B * (nd t (n + 1) - nd t n) ^ (tau.length + 1)) ≤ C * (B * (H ^ tau.length * (nd t (n + 1) - nd t n))) := by gcongr
      refine (h1.trans (add_le_add h2 h5)).trans (le_of_eq ?_)
      ring
  refine ⟨states, fun n hn j hj => ((key n hn).2 j hj).trans ?_⟩
  have h1 := states n hn.le
  have h2 : (nd t (n + 1) - nd t n) ^ (tau.length + 1) ≤ H ^ (tau.length + 1) :=
    pow_le_pow_left₀ (sub_nonneg.mpr (ht n hn).1.le) (ht n hn).2 _
  gcongr

/-- The maximum norm is bounded by the norm of a positive definite form. -/
theorem max_le_qnorm (S : ℕ → ℕ → ℝ) (m : ℕ) (hpd : PosDefForm S m) : ∃ c ≥ 0, ∀ v : ℕ → ℝ, ∀ i < m, |v i| ≤ c * qnorm S m v := by
  let ext : (Fin m → ℝ) → ℕ → ℝ := fun v i => if hi : i < m then v ⟨i, hi⟩ else 0
  have hcont : ∀ i, Continuous fun v => ext v i := by
    intro i
    by_cases h : i < m
    · have : (fun v => ext v i) = fun v => v ⟨i, h⟩ := funext fun v => dif_pos h
      rw [this]
      exact continuous_apply _
    · have : (fun v => ext v i) = fun v => 0 := funext fun v => dif_neg h
      rw [this]
      exact continuous_const
  obtain ⟨α, hα, hl⟩ := exists_lower_bound (fun v : Fin m → ℝ => qform S m (ext v))
    (continuous_finsetSum _ fun i _ => continuous_finsetSum _ fun l _ => continuous_const.mul ((hcont i).mul (hcont l))) (by
      intro a v
      have : ∀ i, ext (a • v) i = a * ext v i := by
        intro i
        simp only [ext]
        split_ifs
        · rfl
        · rw [mul_zero]
      simp only [qform, this, Finset.mul_sum]
      refine Finset.sum_congr rfl fun i _ => Finset.sum_congr rfl fun l _ => ?_
      ring) (by
      intro v hv
      refine hpd _ ?_
      by_contra hcon
      push Not at hcon
      apply hv
      funext i
      have := hcon i i.2
      rwa [show ext v i = v i from dif_pos i.2] at this)
  refine ⟨1 / √α, by positivity, fun v i hi => ?_⟩
  have h1 := hl fun i => v i
  rw [qform_congr (w := v) fun i hi => dif_pos hi] at h1
  have h2 : |v i| ≤ ‖fun i : Fin m => v i‖ := norm_le_pi_norm (fun i : Fin m => v i) ⟨i, hi⟩
  have h3 : √α * |v i| ≤ qnorm S m v := by
    refine Real.le_sqrt_of_sq_le ?_
    rw [mul_pow, Real.sq_sqrt hα.le]
    refine le_trans ?_ h1
    gcongr
  rw [one_div, inv_mul_eq_div, le_div_iff₀ (Real.sqrt_pos.mpr hα), mul_comm]
  exact h3

/-- **C96** (components) The same for the components of the states: the error is at most a constant times the largest initial error plus
`B*(t-t0)*H^M`, and at the collocation points at most the constant times that plus `B*H^(M+1)`, with one constant for all models. -/
theorem C96_components (tau : List ℝ) (hnode : IsGauss tau ∨ IsRadau tau) (S : ℕ → ℕ → ℝ) (m : ℕ)
    (hpd : ∀ v : ℕ → ℝ, (∃ i < m, v i ≠ 0) → 0 < qform S m v) :
    ∃ C ≥ 0, ∀ (fresh freshI : String → ℕ) (casadiPoints : ℕ → String → Except PyErr (List ℝ))
      (csFunction : List (MXExpr ℝ) → List (MXExpr ℝ) → Except PyErr (CsFn ℝ))
      (dae : DaeObj ℝ) (t : List ℝ) (order : ℕ) (method : String) (tdp_fun : Option (ℝ → Mat ℝ))
      (d : DaeObj ℝ) (xdot res : MXExpr ℝ) (F : CsFn ℝ) (rep : Bool) (s : Scheme ℝ), IsCsFunction csFunction →
      SchemePre freshI casadiPoints csFunction dae t order method tdp_fun d xdot res tau F →
      Scheme.new fresh freshI casadiPoints csFunction dae t order method tdp_fun rep = .ok s →
      [fresh "x", fresh "K", fresh "Z", fresh "u", fresh "P"].Nodup → d.nx = m → Contractive d xdot res S →
      ∀ H, (∀ n < s.N, nd t n < nd t (n + 1) ∧ nd t (n + 1) - nd t n ≤ H) →
      ∀ env, (∀ v ∈ s.eq.vals env, v = 0) →
      ∀ (y : ℕ → ℝ → ℝ) (f ζ : ℕ → ℕ → ℝ → ℝ), ExactDae d xdot res tdp_fun t (s.u.val env) (fun i => s.p.val env i 0) y f ζ →
      ∀ B, 0 ≤ B → (∀ n < s.N, ∀ i < m, ContDiffOn ℝ s.M (f n i) (Icc (nd t n) (nd t (n + 1)))) →
      (∀ n < s.N, ∀ i < m, ∀ τ ∈ Icc (nd t n) (nd t (n + 1)), |iteratedDerivWithin s.M (f n i) (Icc (nd t n) (nd t (n + 1))) τ| ≤ B) →
      ∀ ε, 0 ≤ ε → (∀ i < m, |s.x.val env i 0 - y i (nd t 0)| ≤ ε) →
      (∀ n ≤ s.N, ∀ i < m, |s.x.val env i n - y i (nd t n)| ≤ C * (ε + B * (nd t n - nd t 0) * H ^ s.M)) ∧
      ∀ n < s.N, ∀ j < s.M, ∀ i < m, |s.X.val env i (n * s.M + j) - y i (nd s.tc (n * s.M + j))| ≤
        C * (ε + B * (nd t n - nd t 0) * H ^ s.M + B * H ^ (s.M + 1)) := by
  obtain ⟨C, hC, h96⟩ := C96_norm tau hnode S m hpd
  obtain ⟨c, hc, hmax⟩ := qnorm_le_max S m
  obtain ⟨c', hc', hmin⟩ := max_le_qnorm S m hpd
  refine ⟨c' * (c + C) + c' * C * (c + C + 1), by positivity, fun fresh freshI casadiPoints csFunction dae t order method tdp_fun d xdot res F
    rep s hcs pre hs hf hm law H ht env heq y f ζ ex B hB0 hsm hB ε hε h0 => ?_⟩
  obtain ⟨k1, k2⟩ := h96 fresh freshI casadiPoints csFunction dae t order method tdp_fun d xdot res F rep s hcs pre hs hf hm law H ht env heq
    y f ζ ex B hB0 hsm hB
  have hi := hmax _ ε hε h0
  have hmono : ∀ n ≤ s.N, 0 ≤ nd t n - nd t 0 := by
    intro n
    induction n with
    | zero => intro _; simp
    | succ n ih =>
      intro hn
      have := (ht n hn).1
      have := ih (by omega)
      linarith
  have hH : ∀ n < s.N, 0 ≤ H := fun n hn => by
    have := ht n hn
    linarith [this.1, this.2]
  have hT : ∀ n ≤ s.N, 0 ≤ B * (nd t n - nd t 0) * H ^ s.M := by
    intro n hn
    rcases Nat.eq_zero_or_pos n with rfl | h
    · simp
    · exact mul_nonneg (mul_nonneg hB0 (hmono n hn)) (pow_nonneg (hH 0 (by omega)) _)
  have hb : ∀ n ≤ s.N, qnorm S m (fun i => s.x.val env i 0 - y i (nd t 0)) + C * (B * (nd t n - nd t 0) * H ^ s.M) ≤
      (c + C) * (ε + B * (nd t n - nd t 0) * H ^ s.M) := by
    intro n hn
    have := hT n hn
    nlinarith [mul_nonneg hC hε, mul_nonneg hc this]
  constructor
  · intro n hn i him
    refine (hmin _ i him).trans ((mul_le_mul_of_nonneg_left ((k1 n hn).trans (hb n hn)) hc').trans ?_)
    have := hT n hn
    rw [← mul_assoc]
    refine mul_le_mul_of_nonneg_right ?_ (by positivity)
    have : 0 ≤ c' * C * (c + C + 1) := by positivity
    linarith
  · intro n hn j hj i him
    have h1 := hT n hn.le
    have h2 : 0 ≤ B * H ^ (s.M + 1) := mul_nonneg hB0 (pow_nonneg (hH n hn) _)
    refine (hmin _ i him).trans ((mul_le_mul_of_nonneg_left ((k2 n hn j hj).trans
      (mul_le_mul_of_nonneg_left (add_le_add (hb n hn.le) le_rfl) hC)) hc').trans ?_)
    have h3 : (c + C) * (ε + B * (nd t n - nd t 0) * H ^ s.M) + B * H ^ (s.M + 1) ≤
        (c + C + 1) * (ε + B * (nd t n - nd t 0) * H ^ s.M + B * H ^ (s.M + 1)) := by
      have : 0 ≤ (c + C) * (B * H ^ (s.M + 1)) := by positivity
      nlinarith
    have h4 := mul_le_mul_of_nonneg_left h3 (mul_nonneg hc' hC)
    have h5 : 0 ≤ c' * (c + C) * (ε + B * (nd t n - nd t 0) * H ^ s.M + B * H ^ (s.M + 1)) := by positivity
    linarith

/-- **C96** (integrator) The states that the integrator returns satisfy the bounds of `C96_components`, with one constant for all contractive
models. -/
theorem C96_integrator (tau : List ℝ) (hnode : IsGauss tau ∨ IsRadau tau) (S : ℕ → ℕ → ℝ) (m : ℕ)
    (hpd : ∀ v : ℕ → ℝ, (∃ i < m, v i ≠ 0) → 0 < qform S m v) :
    ∃ C ≥ 0, ∀ (fresh freshI : String → ℕ) (casadiPoints : ℕ → String → Except PyErr (List ℝ))
      (csFunction : List (MXExpr ℝ) → List (MXExpr ℝ) → Except PyErr (CsFn ℝ))
      (dae : DaeObj ℝ) (t : List ℝ) (order : ℕ) (method : String) (tdp_fun : Option (ℝ → Mat ℝ))
      (d : DaeObj ℝ) (xdot res : MXExpr ℝ) (F : CsFn ℝ), IsCsFunction csFunction →
      SchemePre freshI casadiPoints csFunction dae t order method tdp_fun d xdot res tau F →
      DistinctSyms fresh → dae.np = 0 ∨ dae.nq = 0 → d.nx = m → Contractive d xdot res S →
      ∀ H, (∀ n < t.length - 1, nd t n < nd t (n + 1) ∧ nd t (n + 1) - nd t n ≤ H) →
      ∀ rootfinder : (List ℝ → List ℝ) → List ℝ → Except PyErr (List ℝ), IsRootfinder rootfinder →
      ∃ g, Integrator.new fresh freshI casadiPoints csFunction dae t order method tdp_fun = .ok g ∧
      ∀ x0 z0 u p out, g.call rootfinder x0 z0 u p = .ok out →
      ∀ (y : ℕ → ℝ → ℝ) (f ζ : ℕ → ℕ → ℝ → ℝ), ExactDae d xdot res tdp_fun t u.e (fun i => p.e i 0) y f ζ →
      ∀ B, 0 ≤ B → (∀ n < t.length - 1, ∀ i < m, ContDiffOn ℝ order (f n i) (Icc (nd t n) (nd t (n + 1)))) →
      (∀ n < t.length - 1, ∀ i < m, ∀ τ ∈ Icc (nd t n) (nd t (n + 1)),
        |iteratedDerivWithin order (f n i) (Icc (nd t n) (nd t (n + 1))) τ| ≤ B) →
      ∀ ε, 0 ≤ ε → (∀ i < m, |x0.e i 0 - y i (nd t 0)| ≤ ε) →
      (∀ n < t.length, ∀ i < m, |out.x.e i n - y i (nd t n)| ≤ C * (ε + B * (nd t n - nd t 0) * H ^ order)) ∧
      (∀ n < t.length - 1, ∀ i < m, |out.xf.e i n - y i (nd t (n + 1))| ≤ C * (ε + B * (nd t (n + 1) - nd t 0) * H ^ order)) ∧
      ∀ n < t.length - 1, ∀ j < order, ∀ i < m, |out.X.e i (n * order + j) - y i (nd out.tc (n * order + j))| ≤
        C * (ε + B * (nd t n - nd t 0) * H ^ order + B * H ^ (order + 1)) := by
  obtain ⟨C, hC, h96⟩ := C96_components tau hnode S m hpd
  refine ⟨C, hC, fun fresh freshI casadiPoints csFunction dae t order method tdp_fun d xdot res F hcs pre hfr hpq hm law H ht rootfinder
    hrf => ?_⟩
  obtain ⟨s, x1, hs, -, hx1v, hnew⟩ := integrator_new fresh freshI casadiPoints csFunction dae t order method tdp_fun d xdot res tau F
    pre
  rw [if_neg (by omega)] at hnew
  have b := pre.built hs
  obtain ⟨px, -⟩ := makeImplicit_parts pre.impl
  have hnx : dae.nx = d.nx := by simp [DaeObj.nx, px]
  have hf : [fresh "x", fresh "K", fresh "Z", fresh "u", fresh "P"].Nodup := by
    simp [hfr.xK, hfr.xZ, hfr.xu, hfr.xP, hfr.KZ, hfr.Ku, hfr.KP, hfr.Zu, hfr.ZP, hfr.uP]
  have htwo := pre.two
  refine ⟨_, hnew, ?_⟩
  intro x0 z0 u p out hout y f ζ hex B hB0 hsm hB ε hε h0
  unfold Integrator.call at hout
  simp only [bind, Except.bind] at hout
  split at hout
  · cases hout
  rename_i sol hsol
  have hroot := (hrf _ _ _ hsol).2
  have hout := Except.ok.inj hout
  set env := Integrator.envOf fresh s sol u p with henv
  have hu : s.u.val env = u.e := by
    rw [b.u]
    show Integrator.envOf fresh s sol u p (fresh "u") = _
    unfold Integrator.envOf
    rw [if_neg hfr.xu.symm, if_neg hfr.Ku.symm, if_neg hfr.Zu.symm, if_pos rfl]
  have hp : s.p.val env = p.e := by
    rw [b.p]
    show Integrator.envOf fresh s sol u p (fresh "P") = _
    unfold Integrator.envOf
    rw [if_neg hfr.xP.symm, if_neg hfr.KP.symm, if_neg hfr.ZP.symm, if_neg hfr.uP.symm, if_pos rfl]
  have hinit : ∀ i < d.nx, s.x.val env i 0 = x0.e i 0 := by
    intro i hi
    have := hroot (x1.val env i 0 - x0.e i 0)
      (List.mem_append_right _ (List.mem_map.mpr ⟨i, List.mem_range.mpr (by omega), rfl⟩))
    rw [hx1v] at this
    exact sub_eq_zero.mp this
  have key := h96 fresh freshI casadiPoints csFunction dae t order method tdp_fun d xdot res F false s hcs pre hs hf hm law H
    (by rw [b.N_eq]; exact ht) env (fun v hv => hroot v (List.mem_append_left _ hv)) y f ζ (by rw [hu, hp]; exact hex) B hB0
    (by rw [b.N_eq, b.M_eq]; exact hsm) (by rw [b.N_eq, b.M_eq]; exact hB) ε hε
    (fun i hi => by rw [hinit i (by rw [hm]; exact hi)]; exact h0 i hi)
  rw [b.N_eq, b.M_eq] at key
  rw [← hout]
  exact ⟨fun n hn i hi => key.1 n (by omega) i hi, fun n hn i hi => key.1 (n + 1) (by omega) i hi, key.2⟩

/-! ## Non-vacuity: `x' = cos(t) - λ*(x - sin(t))` for all `λ >= 0` -/

/-- The model. -/
noncomputable def stiffO (l : ℝ) : DaeObj ℝ :=
  ⟨.sym 0 1, .sym 1 0, .sym 2 0, .sym 3 0, .sym 4 1, ⟨1, 1, false, fun env _ _ => env 0 0 0⟩, .sym 5 0,
    .semi ⟨1, 1, false, fun env _ _ => Real.cos (env 4 0 0) - l * (env 0 0 0 - Real.sin (env 4 0 0))⟩ ⟨0, 1, false, fun _ _ _ => 0⟩⟩

/-- Its residual. -/
noncomputable def stiffRes (l : ℝ) (freshI : String → ℕ) : MXExpr ℝ :=
  ⟨1, 1, false, fun env i j => if i < 1 then env (freshI "xdot") i j - (Real.cos (env 4 0 0) - l * (env 0 0 0 - Real.sin (env 4 0 0))) else 0⟩

/-- Its implicit form. -/
noncomputable def stiffD (l : ℝ) (freshI : String → ℕ) : DaeObj ℝ :=
  ⟨.sym 0 1, .sym 1 0, .sym 2 0, .sym 3 0, .sym 4 1, ⟨1, 1, false, fun env _ _ => env 0 0 0⟩, .sym 5 0,
    .implicit (.sym (freshI "xdot") 1) (stiffRes l freshI)⟩

theorem stiff_pre (l : ℝ) (freshI : String → ℕ) (hI : 7 ≤ freshI "xdot") (t tau : List ℝ) (two : 2 ≤ t.length) (pos : 0 < tau.length) :
    ∃ F : CsFn ℝ, SchemePre freshI (fun _ _ => .ok tau) idealCsFunction (stiffO l) t tau.length "legendre" none (stiffD l freshI)
        (.sym (freshI "xdot") 1) (stiffRes l freshI) tau F := by
  have hfun := isFunctionOf_syms (K := ℝ) [(freshI "xdot", 1, 1), (0, 1, 1), (1, 0, 1), (2, 0, 1), (3, 0, 1), (4, 1, 1), (5, 0, 1)]
    (by simp; omega) [stiffRes l freshI, ⟨1, 1, false, fun env _ _ => env 0 0 0⟩] (by
      intro o ho env1 env2 h
      simp only [List.mem_cons, List.not_mem_nil, or_false, forall_eq_or_imp, forall_eq] at h ho
      have h0 := h.2.1 0 (by omega) 0 (by omega)
      have h4 := h.2.2.2.2.2.1 0 (by omega) 0 (by omega)
      rcases ho with rfl | rfl
      · refine ⟨rfl, rfl, ?_⟩
        intro i hi j hj
        have hx := h.1 i hi j hj
        simp only [stiffRes, MXExpr.at', h0, h4, hx]
      · exact ⟨rfl, rfl, fun i _ j _ => h0⟩)
  have hF : ∃ F, idealCsFunction [MXExpr.sym (freshI "xdot") 1, .sym 0 1, .sym 1 0, .sym 2 0, .sym 3 0, .sym 4 1, .sym 5 0]
      [stiffRes l freshI, ⟨1, 1, false, fun env _ _ => env 0 0 0⟩] = .ok F := by
    unfold idealCsFunction
    rw [dif_pos ⟨_, hfun⟩]
    exact ⟨_, rfl⟩
  obtain ⟨F, hF⟩ := hF
  exact ⟨F, rfl, ⟨rfl, rfl, rfl, rfl, ⟨rfl, rfl⟩, rfl, rfl, rfl, rfl⟩, rfl, rfl, two, pos, rfl, rfl, ⟨rfl, rfl⟩, hF⟩

theorem stiff_zero (l : ℝ) (freshI : String → ℕ) (e : Env ℝ) : ResidualZero (stiffRes l freshI) e ↔
    e (freshI "xdot") 0 0 = Real.cos (e 4 0 0) - l * (e 0 0 0 - Real.sin (e 4 0 0)) := by
  constructor
  · intro h
    have := h 0 Nat.one_pos 0 Nat.one_pos
    simp only [stiffRes, Nat.zero_lt_one, if_true] at this
    exact sub_eq_zero.mp this
  · intro h i hi j hj
    obtain rfl : i = 0 := by change i < 1 at hi; omega
    obtain rfl : j = 0 := by change j < 1 at hj; omega
    simp only [stiffRes, Nat.zero_lt_one, if_true]
    exact sub_eq_zero.mpr h

theorem stiff_lipschitz (l : ℝ) (freshI : String → ℕ) : LocLipschitzOde (stiffD l freshI) (.sym (freshI "xdot") 1) (stiffRes l freshI)
    ⟨1, 1, false, fun env _ _ => Real.cos (env 4 0 0) - l * (env 0 0 0 - Real.sin (env 4 0 0))⟩ := by
  refine ⟨rfl, fun e => ?_, fun e₀ R => ⟨|l|, fun e e' h h' _ δ hδ i _ => ?_⟩⟩
  · rw [stiff_zero]
    exact ⟨fun h i hi => by obtain rfl : i = 0 := (by change i < 1 at hi; omega); exact h, fun h => h 0 Nat.one_pos⟩
  · have h1 : e₀ 4 0 0 = e 4 0 0 := h.t
    have h2 : e₀ 4 0 0 = e' 4 0 0 := h'.t
    have h3 : |e 0 0 0 - e' 0 0 0| ≤ δ := hδ 0 Nat.one_pos
    show |(Real.cos (e 4 0 0) - l * (e 0 0 0 - Real.sin (e 4 0 0))) - (Real.cos (e' 4 0 0) - l * (e' 0 0 0 - Real.sin (e' 4 0 0)))| ≤ _
    rw [← h1, ← h2, show ∀ a b c d : ℝ, (a - l * (b - c)) - (a - l * (d - c)) = -(l * (b - d)) by intros; ring, abs_neg, abs_mul]
    exact mul_le_mul_of_nonneg_left h3 (abs_nonneg l)

theorem stiff_contractive (l : ℝ) (hl : 0 ≤ l) (freshI : String → ℕ) :
    Contractive (stiffD l freshI) (.sym (freshI "xdot") 1) (stiffRes l freshI) (fun _ _ => 1) := by
  intro e e' h h' _ _ ht _
  rw [stiff_zero] at h h'
  have ht : e 4 0 0 = e' 4 0 0 := ht
  show ∑ i ∈ Finset.range 1, ∑ j ∈ Finset.range 1, _ ≤ _
  simp only [Finset.sum_range_one, one_mul, stiffD, MXExpr.sym]
  rw [h, h', ht]
  nlinarith [mul_nonneg hl (sq_nonneg (e 0 0 0 - e' 0 0 0))]

theorem abs_iteratedDeriv_trig (n : ℕ) : ∀ x, |iteratedDeriv n Real.sin x| ≤ 1 ∧ |iteratedDeriv n Real.cos x| ≤ 1 := by
  induction n with
  | zero => intro x; simp [Real.abs_sin_le_one, Real.abs_cos_le_one]
  | succ n ih =>
    intro x
    rw [Real.iteratedDeriv_add_one_sin, Real.iteratedDeriv_add_one_cos]
    refine ⟨(ih x).2, ?_⟩
    rw [Pi.neg_apply, abs_neg]
    exact (ih x).1

/-- With Gauss or Radau nodes there is a constant such that for every `λ >= 0` and every increasing grid from `0` with steps of at most `H`,
the collocation equations have a solution that starts with `0`, and every such solution differs from `sin(t)` at most by the constant times
`t*H^M`. -/
example (tau : List ℝ) (hnode : IsGauss tau ∨ IsRadau tau) (hpos : 0 < tau.length) (freshI : String → ℕ) (hI : 7 ≤ freshI "xdot") :
    ∃ C ≥ 0, ∀ (l : ℝ) (t : List ℝ) (H : ℝ), 0 ≤ l → 2 ≤ t.length → nd t 0 = 0 →
      (∀ n < t.length - 1, nd t n < nd t (n + 1) ∧ nd t (n + 1) - nd t n ≤ H) → ∃ s,
      Scheme.new exFresh freshI (fun _ _ => .ok tau) idealCsFunction (stiffO l) t tau.length "legendre" none = .ok s ∧
      (∃ env, (∀ v ∈ s.eq.vals env, v = 0) ∧ s.x.val env 0 0 = 0) ∧
      ∀ env, (∀ v ∈ s.eq.vals env, v = 0) → s.x.val env 0 0 = 0 →
        ∀ n < t.length, |s.x.val env 0 n - Real.sin (nd t n)| ≤ C * (nd t n * H ^ tau.length) := by
  have hq : ∀ v : ℕ → ℝ, (∃ i < 1, v i ≠ 0) → 0 < qform (fun _ _ => 1) 1 v := by
    rintro v ⟨i, hi, hv⟩
    obtain rfl : i = 0 := by omega
    show 0 < ∑ i ∈ Finset.range 1, ∑ j ∈ Finset.range 1, _
    simp only [Finset.sum_range_one, one_mul]
    exact mul_self_pos.mpr hv
  obtain ⟨C, hC, h96⟩ := C96_components tau hnode (fun _ _ => 1) 1 hq
  refine ⟨C, hC, fun l t H hl two h0 ht => ?_⟩
  obtain ⟨F, pre⟩ := stiff_pre l freshI hI t tau two hpos
  obtain ⟨s, hs⟩ := C26_constructed exFresh freshI _ _ _ _ _ _ _ _ _ _ _ _ false pre
  have b := pre.built hs
  have hN : s.N = t.length - 1 := b.N_eq
  have hM : s.M = tau.length := b.M_eq
  refine ⟨s, hs, ?_, fun env heq hx n hn => ?_⟩
  · obtain ⟨env, heq, hx, -, -⟩ := C95_exists exFresh freshI _ _ _ _ _ _ _ _ _ _ _ _ false s idealCsFunction_spec pre hs (by decide) _
      (stiff_lipschitz l freshI) hnode _ hq (stiff_contractive l hl freshI) (by rw [hN]; exact fun n hn => (ht n hn).1) (fun _ _ _ => 0)
      (fun h => by cases h) (fun _ => 0)
    exact ⟨env, heq, hx 0⟩
  have key := (h96 exFresh freshI _ _ _ _ _ _ _ _ _ _ _ false s idealCsFunction_spec pre hs (by decide) rfl
    (stiff_contractive l hl freshI) H (by rw [hN]; exact ht) env heq (fun _ τ => Real.sin τ) (fun _ _ τ => Real.cos τ) (fun _ _ _ => 0)
    ⟨fun n _ i _ τ _ => (Real.hasDerivAt_sin τ).hasDerivWithinAt, fun n _ τ _ e h => (stiff_zero l freshI e).mpr (by
      have h1 := h.xdot 0 Nat.one_pos
      have h2 := h.x 0 Nat.one_pos
      have h3 := h.t
      simp only [stiffD, MXExpr.sym] at h1 h2 h3
      rw [h1, h2, h3]
      ring)⟩ 1 zero_le_one (fun n _ i _ => Real.contDiff_cos.contDiffOn) (fun n hn i _ τ hτ => by
        rw [iteratedDerivWithin_eq_iteratedDeriv (uniqueDiffOn_Icc (ht n (by omega)).1) Real.contDiff_cos.contDiffAt hτ]
        exact (abs_iteratedDeriv_trig _ τ).2) 0 le_rfl (fun i hi => by
        obtain rfl : i = 0 := by omega
        rw [hx, h0, Real.sin_zero, sub_self, abs_zero])).1 n (by omega) 0 Nat.one_pos
  rw [hM, h0] at key
  simpa using key

/-- Contractivity cannot be dropped in C95: for `λ = -1` (the model is linear, with Lipschitz constant `1`) the equations of implicit Euler
with one step of length `1` have no solution that starts with `0`. -/
theorem C95_contractivity_needed (freshI : String → ℕ) (hI : 7 ≤ freshI "xdot") : ∃ s,
    Scheme.new exFresh freshI (fun _ _ => .ok [1]) idealCsFunction (stiffO (-1)) [0, 1] 1 "legendre" none = .ok s ∧
    ¬ ∃ env, (∀ v ∈ s.eq.vals env, v = 0) ∧ s.x.val env 0 0 = 0 := by
  obtain ⟨F, pre⟩ := stiff_pre (-1) freshI hI [0, 1] [1] (by simp) (by simp)
  obtain ⟨s, hs⟩ := C26_constructed exFresh freshI _ _ _ _ _ _ _ _ _ _ _ _ false pre
  have b := pre.built hs
  refine ⟨s, hs, ?_⟩
  rintro ⟨env, heq, hx⟩
  obtain ⟨r, -, -⟩ := (Scheme.eq_zero_iff pre b env).mp heq
  have hc : 0 < (([0, 1] : List ℝ).length - 1) * ([1] : List ℝ).length := by simp
  obtain ⟨e, a⟩ := exists_atPoint idealCsFunction_spec pre b.toCore env hc
  have v := a.vals pre b.toCore
  have hr := (stiff_zero (-1) freshI e).mp ((residual_iff exFresh freshI _ _ _ _ _ _ _ _ _ _ _ _ false s idealCsFunction_spec pre b hc a).mp
    (r _ hc))
  obtain ⟨T, hT, hA, hB, -⟩ := C09_butcher_consistent ([1] : List ℝ) (by simp) (by simp)
  obtain ⟨T', hT', -, -, -, hcc, -⟩ := C08_butcher_exact ([1] : List ℝ) (by simp)
  rw [hT] at hT'
  cases hT'
  have hA0 : wA ([1] : List ℝ) 0 0 = 1 := by
    have h1 := hA 0 (by simp)
    rw [hcc 0 (by simp)] at h1
    have h2 : T.A.e [0, 0] = wA ([1] : List ℝ) 0 0 := by
      rw [butcher_ok] at hT
      cases hT
      rfl
    rw [← h2]
    simpa using h1
  have hX := b.X env 0 0 0 (by simp) (by simp)
  have htc := b.tc 0 0 (by simp) (by simp)
  simp [nd] at hX htc
  have h1 := v.xdot 0 Nat.one_pos
  have h2 := v.x 0 Nat.one_pos
  have h3 := v.t
  simp only [stiffD, MXExpr.sym] at h1 h2 h3
  rw [b.x] at hx
  have hx : env (exFresh "x") 0 0 = 0 := hx
  rw [hx, hA0, zero_add, mul_one] at hX
  have htc : nd s.tc 0 = 1 := htc
  rw [h1, h2, h3, hX, htc] at hr
  have h4 := Real.cos_two_neg
  rw [show (2 : ℝ) = 2 * 1 by norm_num, Real.cos_two_mul'] at h4
  have h5 : Real.cos 1 = Real.sin 1 := by linarith
  rw [h5, sub_self] at h4
  exact lt_irrefl _ h4

end CE
