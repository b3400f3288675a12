import Verif.Num.PropsControl2
import Verif.Num.PropsControl3
import Verif.Num.PropsStability3

/-! # Property C140: existence of optimal solutions for contractive models and steps of any length -/

open Set Filter Topology

namespace CE

section
variable (fresh freshI : String → ℕ) (casadiPoints : ℕ → String → Except PyErr (List ℝ))
    (csFunction : List (MXExpr ℝ) → List (MXExpr ℝ) → Except PyErr (CsFn ℝ))
    (dae : DaeObj ℝ) (t : List ℝ) (order : ℕ) (method : String) (tdp_fun : Option (ℝ → Mat ℝ))
    (d : DaeObj ℝ) (xdot res ode : MXExpr ℝ) (tau : List ℝ) (F : CsFn ℝ) (rep : Bool) (s : Scheme ℝ)

/-- **C140** (continuity, any steps) Gauss or Radau nodes and an increasing grid: the solutions of the collocation equations of a contractive
ordinary differential equation that is Lipschitz continuous in the inputs and parameters depend continuously on the initial state, the inputs
and the parameters. -/
theorem C140_contractive_continuous (hcs : IsCsFunction csFunction)
    (pre : SchemePre freshI casadiPoints csFunction dae t order method tdp_fun d xdot res tau F)
    (hs : Scheme.new fresh freshI casadiPoints csFunction dae t order method tdp_fun rep = .ok s)
    (hf : [fresh "x", fresh "K", fresh "Z", fresh "u", fresh "P"].Nodup) (hnode : IsGauss tau ∨ IsRadau tau) (S : ℕ → ℕ → ℝ)
    (hpd : PosDefForm S d.nx) (hz : d.nz = 0) (con : ContractiveOde d xdot res ode S) (Lu : ℝ) (lu : LipschitzInData d xdot res Lu)
    (Lq Lqz Lqu : ℝ) (hLq : 0 ≤ Lq) (lq : LipschitzQuadZ d Lq Lqz) (lqu : LipschitzInData d xdot d.quad Lqu)
    (ht : ∀ n < s.N, nd t n < nd t (n + 1)) (A : Type) [TopologicalSpace A]
    (env : A → Env ℝ) (heq : ∀ a, ∀ v ∈ s.eq.vals (env a), v = 0)
    (hx : ∀ i < d.nx, Continuous fun a => s.x.val (env a) i 0)
    (hu : ∀ n < s.N, ∀ k < d.nu, Continuous fun a => s.u.val (env a) k n)
    (hp : ∀ i < d.np, Continuous fun a => s.p.val (env a) i 0) :
    (∀ n ≤ s.N, (∀ i < d.nx, Continuous fun a => s.x.val (env a) i n) ∧ ∀ k < d.nq, Continuous fun a => s.q.val (env a) k n) ∧
    ∀ n < s.N, ∀ j < s.M, ∀ i < d.nx, Continuous fun a => s.X.val (env a) i (n * s.M + j) := by
  have b := pre.built hs
  obtain ⟨C, hC, h141⟩ := C141_contractive tau hnode S d.nx hpd
  obtain ⟨Cq, hCq, hquad⟩ := C141_contractive_quadrature tau hnode S d.nx hpd
  obtain ⟨c, hc, hmax⟩ := qnorm_le_max S d.nx
  obtain ⟨c', hc', hmin⟩ := max_le_qnorm S d.nx hpd
  -- the changes of the initial state and of the data
  let ε : A → A → ℝ := fun a₀ a => ∑ i ∈ Finset.range d.nx, |s.x.val (env a) i 0 - s.x.val (env a₀) i 0|
  let δ : A → A → ℝ := fun a₀ a => (∑ n ∈ Finset.range s.N, ∑ k ∈ Finset.range d.nu, |s.u.val (env a) k n - s.u.val (env a₀) k n|) +
    ∑ i ∈ Finset.range d.np, |s.p.val (env a) i 0 - s.p.val (env a₀) i 0|
  have hε0 : ∀ a₀ a, 0 ≤ ε a₀ a := fun a₀ a => Finset.sum_nonneg fun _ _ => abs_nonneg _
  have p1 : ∀ a₀ a, 0 ≤ ∑ n ∈ Finset.range s.N, ∑ k ∈ Finset.range d.nu, |s.u.val (env a) k n - s.u.val (env a₀) k n| := fun a₀ a =>
    Finset.sum_nonneg fun _ _ => Finset.sum_nonneg fun _ _ => abs_nonneg _
  have p2 : ∀ a₀ a, 0 ≤ ∑ i ∈ Finset.range d.np, |s.p.val (env a) i 0 - s.p.val (env a₀) i 0| := fun a₀ a =>
    Finset.sum_nonneg fun _ _ => abs_nonneg _
  have hδ0 : ∀ a₀ a, 0 ≤ δ a₀ a := fun a₀ a => add_nonneg (p1 a₀ a) (p2 a₀ a)
  have hεc : ∀ a₀, Tendsto (ε a₀) (𝓝 a₀) (𝓝 0) := fun a₀ => by
    have h : Continuous (ε a₀) := continuous_finsetSum _ fun i hi => ((hx i (Finset.mem_range.mp hi)).sub continuous_const).abs
    have h0 : ε a₀ a₀ = 0 := by simp [ε]
    have := h.tendsto a₀
    rwa [h0] at this
  have hδc : ∀ a₀, Tendsto (δ a₀) (𝓝 a₀) (𝓝 0) := fun a₀ => by
    have h : Continuous (δ a₀) := (continuous_finsetSum _ fun n hn => continuous_finsetSum _ fun k hk =>
      ((hu n (Finset.mem_range.mp hn) k (Finset.mem_range.mp hk)).sub continuous_const).abs).add
      (continuous_finsetSum _ fun i hi => ((hp i (Finset.mem_range.mp hi)).sub continuous_const).abs)
    have h0 : δ a₀ a₀ = 0 := by simp [δ]
    have := h.tendsto a₀
    rwa [h0] at this
  have bε : ∀ a₀ a, ∀ i < d.nx, |s.x.val (env a) i 0 - s.x.val (env a₀) i 0| ≤ ε a₀ a := fun a₀ a i hi =>
    Finset.single_le_sum (f := fun i => |s.x.val (env a) i 0 - s.x.val (env a₀) i 0|) (fun _ _ => abs_nonneg _) (Finset.mem_range.mpr hi)
  have bu : ∀ a₀ a, ∀ n < s.N, ∀ k < d.nu, |s.u.val (env a) k n - s.u.val (env a₀) k n| ≤ δ a₀ a := fun a₀ a n hn k hk => by
    have s1 := Finset.single_le_sum (f := fun k => |s.u.val (env a) k n - s.u.val (env a₀) k n|) (fun _ _ => abs_nonneg _)
      (Finset.mem_range.mpr hk)
    have s2 := Finset.single_le_sum (f := fun n => ∑ k ∈ Finset.range d.nu, |s.u.val (env a) k n - s.u.val (env a₀) k n|)
      (fun _ _ => Finset.sum_nonneg fun _ _ => abs_nonneg _) (Finset.mem_range.mpr hn)
    have s3 := p2 a₀ a
    simp only [δ] at s1 s2 ⊢
    linarith
  have bp : ∀ a₀ a, ∀ i < d.np, |s.p.val (env a) i 0 - s.p.val (env a₀) i 0| ≤ δ a₀ a := fun a₀ a i hi => by
    have s1 := Finset.single_le_sum (f := fun i => |s.p.val (env a) i 0 - s.p.val (env a₀) i 0|) (fun _ _ => abs_nonneg _)
      (Finset.mem_range.mpr hi)
    have s2 := p1 a₀ a
    simp only [δ] at s1 ⊢
    linarith
  have hpar : ∀ a, ∀ k < s.N * s.M, ∀ i < d.np, s.p.val (env a) i (if rep then k else 0) = s.p.val (env a) i 0 := by
    intro a k hk i hi
    cases hr : rep
    · rfl
    · rw [b.N_eq, b.M_eq] at hk
      exact ((Scheme.eq_zero_iff pre b (env a)).mp (heq a)).2.2 hr k hk i hi
  have bp' : ∀ a₀ a, ∀ k < s.N * s.M, ∀ i < d.np,
      |s.p.val (env a) i (if rep then k else 0) - s.p.val (env a₀) i (if rep then k else 0)| ≤ δ a₀ a := fun a₀ a k hk i hi => by
    rw [hpar a k hk i hi, hpar a₀ k hk i hi]
    exact bp a₀ a i hi
  have heq' : ∀ a, ∀ v ∈ s.eq.vals (env a), |v| ≤ 0 := fun a v hv => by rw [heq a v hv, abs_zero]
  have hk := fun a₀ a => h141 fresh freshI casadiPoints csFunction dae t order method tdp_fun d xdot res ode F rep s hcs pre hs hf rfl con Lu lu ht
    (env a) (env a₀) 0 0 le_rfl le_rfl (heq' a) (heq' a₀) (fun _ => δ a₀ a) (fun _ _ => hδ0 a₀ a) (bu a₀ a) (bp' a₀ a)
  have hkq := fun a₀ a => hquad fresh freshI casadiPoints csFunction dae t order method tdp_fun d xdot res ode F rep s hcs pre hs hf rfl hz con Lu lu
    Lq Lqz Lqu hLq lq lqu ht (env a) (env a₀) 0 0 le_rfl le_rfl (heq' a) (heq' a₀) (fun _ => δ a₀ a) (fun _ _ => hδ0 a₀ a) (bu a₀ a) (bp' a₀ a)
    (ε a₀ a) (hε0 a₀ a) (bε a₀ a)
  simp only [add_zero, mul_zero] at hk hkq
  have hsum : ∀ a₀ n, Tendsto (fun a => ∑ l ∈ Finset.range n, (nd t (l + 1) - nd t l) * (Lu * δ a₀ a)) (𝓝 a₀) (𝓝 0) := fun a₀ n => by
    have := tendsto_finsetSum (Finset.range n) fun l _ => ((hδc a₀).const_mul Lu).const_mul (nd t (l + 1) - nd t l)
    simpa using this
  refine ⟨fun n hn => ⟨fun i hi => continuous_iff_continuousAt.mpr fun a₀ => ?_, fun k hk' => continuous_iff_continuousAt.mpr fun a₀ => ?_⟩,
    fun n hn j hj i hi => continuous_iff_continuousAt.mpr fun a₀ => ?_⟩
  · refine continuousAt_of_bound (B := fun a => c' * (c * ε a₀ a + C * ∑ l ∈ Finset.range n, (nd t (l + 1) - nd t l) * (Lu * δ a₀ a)))
      (fun a => ?_) ?_
    · refine (hmin (fun i => s.x.val (env a) i n - s.x.val (env a₀) i n) i hi).trans (mul_le_mul_of_nonneg_left ?_ hc')
      exact ((hk a₀ a).1 n hn).trans (add_le_add (hmax _ _ (hε0 a₀ a) (bε a₀ a)) le_rfl)
    · have := (((hεc a₀).const_mul c).add ((hsum a₀ n).const_mul C)).const_mul c'
      simpa using this
  · refine continuousAt_of_bound (fun a => hkq a₀ a n hn k hk') ?_
    have := (tendsto_finsetSum (Finset.range n) fun r _ => ((((hεc a₀).add (hsum a₀ (r + 1))).const_mul Lq).add
      ((hδc a₀).const_mul Lqu)).const_mul (nd t (r + 1) - nd t r)).const_mul Cq
    simpa using this
  · refine continuousAt_of_bound (B := fun a => c' * (C * (c * ε a₀ a + ∑ l ∈ Finset.range (n + 1), (nd t (l + 1) - nd t l) * (Lu * δ a₀ a))))
      (fun a => ?_) ?_
    · refine (hmin (fun i => s.X.val (env a) i (n * s.M + j) - s.X.val (env a₀) i (n * s.M + j)) i hi).trans (mul_le_mul_of_nonneg_left ?_ hc')
      exact ((hk a₀ a).2 n hn j hj).trans (mul_le_mul_of_nonneg_left (add_le_add (hmax _ _ (hε0 a₀ a) (bε a₀ a)) le_rfl) hC)
    · have := ((((hεc a₀).const_mul c).add (hsum a₀ (n + 1))).const_mul C).const_mul c'
      simpa using this

/-- **C140** (existence, any steps) Under these assumptions, with a decision that depends continuously on a point of a compact set and costs and
constraints that depend continuously on it: if the discretised problem has a feasible solution, it has an optimal solution. -/
theorem C140_contractive_exists (hcs : IsCsFunction csFunction)
    (pre : SchemePre freshI casadiPoints csFunction dae t order method tdp_fun d xdot res tau F)
    (hs : Scheme.new fresh freshI casadiPoints csFunction dae t order method tdp_fun rep = .ok s)
    (hf : [fresh "x", fresh "K", fresh "Z", fresh "u", fresh "P"].Nodup) (hnode : IsGauss tau ∨ IsRadau tau) (S : ℕ → ℕ → ℝ)
    (hpd : PosDefForm S d.nx) (hz : d.nz = 0) (con : ContractiveOde d xdot res ode S) (lip : LocLipschitzDae d xdot res)
    (Lu : ℝ) (lu : LipschitzInData d xdot res Lu)
    (Lq Lqz Lqu : ℝ) (hLq : 0 ≤ Lq) (lq : LipschitzQuadZ d Lq Lqz) (lqu : LipschitzInData d xdot d.quad Lqu)
    (ht : ∀ n < s.N, nd t n < nd t (n + 1)) (A : Type) [TopologicalSpace A] [CompactSpace A] (w : A → Decision)
    (hx : ∀ i < d.nx, Continuous fun a => (w a).x0 i) (hu : ∀ n < s.N, ∀ k < d.nu, Continuous fun a => (w a).u k n)
    (hp : ∀ i < d.np, Continuous fun a => (w a).p i)
    {ι : Type} (φ : CostFn) (Γ : ι → CostFn) (Λ : ℝ) (hφ : LipschitzCost d.nx d.nq s.N Λ φ) (hΓ : ∀ c, LipschitzCost d.nx d.nq s.N Λ (Γ c))
    (hφc : ∀ X q, Continuous fun a => φ X q (w a)) (hΓc : ∀ c X q, Continuous fun a => Γ c X q (w a))
    (feas : ∃ env, Feasible s (range w) Γ env) : ∃ env, Optimal s (range w) φ Γ env := by
  have b := pre.built hs
  refine optimal_core (fun a => ?_) (fun A _ env heq h1 h2 h3 => (C140_contractive_continuous fresh freshI casadiPoints csFunction dae t order method
    tdp_fun d xdot res ode tau F rep s hcs pre hs hf hnode S hpd hz con Lu lu Lq Lqz Lqu hLq lq lqu ht A env heq h1 h2 h3).1) hx hu hp hφ hΓ hφc
    hΓc feas
  obtain ⟨e, h1, h2⟩ := exists_decision hf b (w a)
  obtain ⟨e', k1, k2, k3, k4⟩ := C98_exists fresh freshI casadiPoints csFunction dae t order method tdp_fun d xdot res tau F rep s hcs pre hs hf
    lip hnode S hpd (con.contractive' pre.wf.res_cols) ht e (fun _ c _ i _ => by rw [h2, h2]) (w a).x0
  refine ⟨e', k1, ?_⟩
  have e1 : s.u.val e' = (w a).u := by funext i n; rw [k3, h1]
  have e2 : (fun i => s.p.val e' i 0) = (w a).p := by funext i; rw [k4, h2]
  have e3 : (fun i => s.x.val e' i 0) = (w a).x0 := by funext i; rw [k2]
  rw [Scheme.decision, e1, e2, e3]

end

/-! ## Non-vacuity -/

/-- The initial state 0 and the constant input `a` in [-1, 1]. -/
def lagW (a : Icc (-1 : ℝ) 1) : Decision := ⟨fun _ _ => a, fun _ => 0, fun _ => 0⟩

theorem lag_locLipschitz (l : ℝ) (hl : 0 ≤ l) (freshI : String → ℕ) (q : ℕ) (g : Env ℝ → ℕ → ℝ) :
    LocLipschitzDae (odeUD freshI 1 1 0 q (lagF l) g) (.sym (freshI "xdot") 1) (odeRes freshI 1 (lagF l)) := by
  have hz := fun e => ode_residual freshI 1 (lagF l) e
  refine ⟨fun ξ u p τ r => ⟨fun _ => u 0 - l * ξ 0, fun _ => 0, fun e h => (hz e).mpr fun i hi => ?_⟩,
    fun e₀ R => ⟨l, fun e e' r r' h h' _ δ _ hδ => ⟨fun i hi => ?_, fun k hk => absurd hk (Nat.not_lt_zero _)⟩⟩⟩
  · have h1 : e (freshI "xdot") i 0 = _ := h.xdot i hi
    have h2 : e 0 0 0 = _ := h.x 0 Nat.one_pos
    have h3 : e 2 0 0 = _ := h.u 0 Nat.one_pos
    rw [h1, lagF, h2, h3]
  · have h1 := (hz e).mp r i hi
    have h2 := (hz e').mp r' i hi
    have h3 : e 2 0 0 = e' 2 0 0 := (h.symm.trans h').u 0 Nat.one_pos
    have hx : |e 0 0 0 - e' 0 0 0| ≤ δ := hδ 0 Nat.one_pos
    show |e (freshI "xdot") i 0 - e' (freshI "xdot") i 0| ≤ _
    rw [h1, h2, lagF, lagF, h3, sub_sub_sub_cancel_left, ← mul_sub, abs_mul, abs_of_nonneg hl, abs_sub_comm]
    exact mul_le_mul_of_nonneg_left hx hl

/-- For `x' = u - λ x`, `x(0) = 0` with any `λ >= 0`, the quadrature `x + u`, Gauss or Radau nodes and any increasing grid: among the constant
inputs in [-1, 1] there is one that brings the computed quadrature closest to `c`. -/
example (tau : List ℝ) (hnode : IsGauss tau ∨ IsRadau tau) (hpos : 0 < tau.length) (freshI : String → ℕ) (hI : 6 ≤ freshI "xdot")
    (l c : ℝ) (t : List ℝ) (hl : 0 ≤ l) (two : 2 ≤ t.length) (ht : ∀ n < t.length - 1, nd t n < nd t (n + 1)) : ∃ s env,
    Scheme.new exFresh freshI (fun _ _ => .ok tau) idealCsFunction (odeUO 1 1 0 1 (lagF l) lagG) t tau.length "legendre" none false = .ok s ∧
    Optimal s (range lagW) (missQuad c) (fun c : Empty => c.elim) env := by
  have hq : PosDefForm (fun _ _ => 1) 1 := by
    rintro v ⟨i, hi, hv⟩
    obtain rfl : i = 0 := by omega
    simp only [qform, Finset.sum_range_one, one_mul]
    exact mul_self_pos.mpr hv
  obtain ⟨F, pre⟩ := odeU_pre freshI hI 1 1 0 1 (lagF l) lagG (fun e e' hx hu hp ht => ⟨fun i hi => by
    simp [lagF, hx 0 Nat.one_pos, hu 0 Nat.one_pos], fun i hi => by
    simp [lagG, hx 0 Nat.one_pos, hu 0 Nat.one_pos]⟩) rfl t tau two hpos
  obtain ⟨con, lu⟩ := lag_laws l hl freshI 1 lagG
  obtain ⟨s, hs⟩ := C26_constructed exFresh freshI _ _ _ _ _ _ _ _ _ _ _ _ false pre
  have b := pre.built hs
  have hN : s.N = t.length - 1 := b.N_eq
  have lip := lag_locLipschitz l hl freshI 1 lagG
  obtain ⟨e, h1, h2⟩ := exists_decision (by decide) b (lagW ⟨0, by simp⟩)
  obtain ⟨e', k1, k2, k3, k4⟩ := C98_exists exFresh freshI _ _ _ _ _ _ _ _ _ _ _ _ _ s idealCsFunction_spec pre hs (by decide)
    lip hnode _ hq (con.contractive' pre.wf.res_cols) (by rw [hN]; exact ht) e (fun h => by cases h) (fun _ => 0)
  have hdec : lagW ⟨0, by simp⟩ = s.decision e' := by
    have e1 : s.u.val e' = (lagW ⟨0, by simp⟩).u := by funext i n; rw [k3, h1]
    have e2 : (fun i => s.p.val e' i 0) = (lagW ⟨0, by simp⟩).p := by funext i; rw [k4, h2]
    have e3 : (fun i => s.x.val e' i 0) = (lagW ⟨0, by simp⟩).x0 := by funext i; rw [k2]; rfl
    rw [Scheme.decision, e1, e2, e3]
  obtain ⟨env, h⟩ := C140_contractive_exists exFresh freshI _ _ _ _ _ _ _ _ _ _ _ _ _ _ s idealCsFunction_spec pre hs (by decide) hnode _ hq rfl con
    lip 1 lu 1 0 1 zero_le_one (lagG_lip l freshI).1 (lagG_lip l freshI).2 (by rw [hN]; exact ht) (Icc (-1 : ℝ) 1) lagW
    (fun _ _ => continuous_const) (fun _ _ _ _ => continuous_subtype_val) (fun _ _ => continuous_const) (missQuad c) (fun c : Empty => c.elim) 1
    (missQuad_lipschitz _ _ _) (fun c => c.elim) (fun _ _ => continuous_const) (fun c => c.elim) ⟨e', k1, ⟨_, hdec⟩, fun c => c.elim⟩
  exact ⟨s, env, hs, h⟩

end CE
