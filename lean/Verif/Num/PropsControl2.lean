import Verif.Num.PropsControl
import Verif.Num.PropsInexact
import Mathlib.Topology.Order.Compact

/-! # Property C140: existence of optimal solutions of the discretised problem -/

open Set Filter Topology

namespace CE

/-- For fixed values of the state derivative, the state and the algebraic state the expression is a continuous function of the inputs and
the parameters. -/
def ContinuousInData (d : DaeObj ℝ) (xdot e : MXExpr ℝ) : Prop :=
  ∀ (A : Type) [TopologicalSpace A] (u p : A → ℕ → ℝ), (∀ i < d.u.rows, Continuous fun a => u a i) → (∀ i < d.p.rows, Continuous fun a => p a i) →
    ∀ (v ξ ζ : ℕ → ℝ) (τ : ℝ) (r : ℕ → ℕ → ℝ) (env : A → Env ℝ), (∀ a, PointVals d xdot v ξ ζ (u a) (p a) τ r (env a)) →
    ∀ i < e.rows, Continuous fun a => e.val (env a) i 0

theorem continuousAt_of_bound {A : Type} [TopologicalSpace A] {g B : A → ℝ} {a₀ : A} (h : ∀ a, |g a - g a₀| ≤ B a)
    (hB : Tendsto B (𝓝 a₀) (𝓝 0)) : ContinuousAt g a₀ := by
  rw [ContinuousAt, tendsto_iff_dist_tendsto_zero]
  exact squeeze_zero (fun _ => dist_nonneg) (fun a => by rw [Real.dist_eq]; exact h a) hB

theorem vals_bound (e : MXExpr ℝ) (env : Env ℝ) (tol : ℝ) (h : ∀ i < e.rows, ∀ j < e.cols, |e.val env i j| ≤ tol) :
    ∀ v ∈ e.vals env, |v| ≤ tol := by
  intro v hv
  obtain ⟨k, hk, rfl⟩ := List.mem_map.mp hv
  rw [List.mem_range] at hk
  have hr : 0 < e.rows := by
    rcases Nat.eq_zero_or_pos e.rows with h0 | h0
    · rw [h0, Nat.zero_mul] at hk; omega
    · exact h0
  exact h _ (Nat.mod_lt _ hr) _ (Nat.div_lt_of_lt_mul hk)

/-- With decisions that depend continuously on a point of a compact set: if every decision has a solution of the equations and the solutions
depend continuously on the decisions, then a problem that has a feasible solution has an optimal one. -/
theorem optimal_core {s : Scheme ℝ} {nx nq nu np : ℕ} {A : Type} [TopologicalSpace A] [CompactSpace A] {w : A → Decision}
    (hex : ∀ a, ∃ e, (∀ v ∈ s.eq.vals e, v = 0) ∧ s.decision e = w a)
    (hcont : ∀ (A : Type) [TopologicalSpace A] (env : A → Env ℝ), (∀ a, ∀ v ∈ s.eq.vals (env a), v = 0) →
      (∀ i < nx, Continuous fun a => s.x.val (env a) i 0) → (∀ n < s.N, ∀ k < nu, Continuous fun a => s.u.val (env a) k n) →
      (∀ i < np, Continuous fun a => s.p.val (env a) i 0) →
      ∀ n ≤ s.N, (∀ i < nx, Continuous fun a => s.x.val (env a) i n) ∧ ∀ k < nq, Continuous fun a => s.q.val (env a) k n)
    (hx : ∀ i < nx, Continuous fun a => (w a).x0 i) (hu : ∀ n < s.N, ∀ k < nu, Continuous fun a => (w a).u k n)
    (hp : ∀ i < np, Continuous fun a => (w a).p i)
    {ι : Type} {φ : CostFn} {Γ : ι → CostFn} {Λ : ℝ} (hφ : LipschitzCost nx nq s.N Λ φ) (hΓ : ∀ c, LipschitzCost nx nq s.N Λ (Γ c))
    (hφc : ∀ X q, Continuous fun a => φ X q (w a)) (hΓc : ∀ c X q, Continuous fun a => Γ c X q (w a))
    (feas : ∃ env, Feasible s (range w) Γ env) : ∃ env, Optimal s (range w) φ Γ env := by
  choose env heq hdec using hex
  have dx : ∀ a i, s.x.val (env a) i 0 = (w a).x0 i := fun a i => congrFun (congrArg Decision.x0 (hdec a)) i
  have du : ∀ a k n, s.u.val (env a) k n = (w a).u k n := fun a k n => congrFun (congrFun (congrArg Decision.u (hdec a)) k) n
  have dp : ∀ a i, s.p.val (env a) i 0 = (w a).p i := fun a i => congrFun (congrArg Decision.p (hdec a)) i
  -- two solutions with one decision have one cost
  have huniq : ∀ e e', (∀ v ∈ s.eq.vals e, v = 0) → (∀ v ∈ s.eq.vals e', v = 0) → s.decision e = s.decision e' →
      ∀ ψ, LipschitzCost nx nq s.N Λ ψ → s.cost ψ e = s.cost ψ e' := by
    intro e e' he he' hd ψ hψ
    letI : TopologicalSpace Bool := ⊤
    have hbool : ∀ g : Bool → ℝ, Continuous g → g true = g false := fun g hg =>
      ((show Inseparable true false by rw [Inseparable, nhds_top, nhds_top]).map hg).eq
    have hconst : ∀ g : Bool → ℝ, g true = g false → Continuous g := fun g hg => by
      have : g = fun _ => g true := by funext x; cases x <;> simp [hg]
      rw [this]
      exact continuous_const
    have c1 := hcont Bool (fun x => if x then e else e') (fun x => by cases x <;> simpa)
      (fun i _ => hconst _ (congrFun (congrArg Decision.x0 hd) i))
      (fun n _ k _ => hconst _ (congrFun (congrFun (congrArg Decision.u hd) k) n))
      (fun i _ => hconst _ (congrFun (congrArg Decision.p hd) i))
    have := hψ (s.x.val e) (s.x.val e') (fun k => s.q.val e k s.N) (fun k => s.q.val e' k s.N) (s.decision e) 0
      (fun n hn i hi => by
        have := hbool _ ((c1 n hn).1 i hi)
        simp only [if_true, Bool.false_eq_true, if_false] at this
        rw [this, sub_self, abs_zero])
      (fun k hk => by
        have := hbool _ ((c1 s.N le_rfl).2 k hk)
        simp only [if_true, Bool.false_eq_true, if_false] at this
        rw [this, sub_self, abs_zero])
    rw [mul_zero] at this
    rw [Scheme.cost, Scheme.cost, ← hd]
    exact sub_eq_zero.mp (abs_nonpos_iff.mp this)
  have c1 := hcont A env heq (by simpa only [dx] using hx) (by simpa only [du] using hu)
    (by simpa only [dp] using hp)
  have hcost : ∀ ψ : CostFn, LipschitzCost nx nq s.N Λ ψ → (∀ X q, Continuous fun a => ψ X q (w a)) →
      Continuous fun a => s.cost ψ (env a) := by
    intro ψ hψ hc
    refine continuous_iff_continuousAt.mpr fun a₀ => ?_
    set δ : A → ℝ := fun a => (∑ n ∈ Finset.range (s.N + 1), ∑ i ∈ Finset.range nx, |s.x.val (env a) i n - s.x.val (env a₀) i n|) +
      ∑ k ∈ Finset.range nq, |s.q.val (env a) k s.N - s.q.val (env a₀) k s.N| with hδ
    have hδc : Tendsto δ (𝓝 a₀) (𝓝 0) := by
      have h : Continuous δ := (continuous_finsetSum _ fun n hn => continuous_finsetSum _ fun i hi =>
        (((c1 n (by have := Finset.mem_range.mp hn; omega)).1 i (Finset.mem_range.mp hi)).sub continuous_const).abs).add
        (continuous_finsetSum _ fun k hk => (((c1 s.N le_rfl).2 k (Finset.mem_range.mp hk)).sub continuous_const).abs)
      have h0 : δ a₀ = 0 := by simp [hδ]
      have := h.tendsto a₀
      rwa [h0] at this
    set X₀ := s.x.val (env a₀)
    set q₀ := fun k => s.q.val (env a₀) k s.N
    have hB : Tendsto (fun a => Λ * δ a + |ψ X₀ q₀ (w a) - ψ X₀ q₀ (w a₀)|) (𝓝 a₀) (𝓝 0) := by
      have h1 : Tendsto (fun a => ψ X₀ q₀ (w a) - ψ X₀ q₀ (w a₀)) (𝓝 a₀) (𝓝 0) := by
        have := ((hc X₀ q₀).tendsto a₀).sub_const (ψ X₀ q₀ (w a₀))
        rwa [sub_self] at this
      have := (hδc.const_mul Λ).add h1.abs
      rwa [mul_zero, abs_zero, add_zero] at this
    refine continuousAt_of_bound (fun a => ?_) hB
    have p1 : 0 ≤ ∑ k ∈ Finset.range nq, |s.q.val (env a) k s.N - s.q.val (env a₀) k s.N| := Finset.sum_nonneg fun _ _ => abs_nonneg _
    have p2 : 0 ≤ ∑ n ∈ Finset.range (s.N + 1), ∑ i ∈ Finset.range nx, |s.x.val (env a) i n - s.x.val (env a₀) i n| :=
      Finset.sum_nonneg fun _ _ => Finset.sum_nonneg fun _ _ => abs_nonneg _
    have h1 := hψ (s.x.val (env a)) X₀ (fun k => s.q.val (env a) k s.N) q₀ (w a) (δ a) (fun n hn i hi => by
      have s1 := Finset.single_le_sum (f := fun i => |s.x.val (env a) i n - s.x.val (env a₀) i n|) (fun _ _ => abs_nonneg _)
        (Finset.mem_range.mpr hi)
      have s2 := Finset.single_le_sum (f := fun n => ∑ i ∈ Finset.range nx, |s.x.val (env a) i n - s.x.val (env a₀) i n|)
        (fun _ _ => Finset.sum_nonneg fun _ _ => abs_nonneg _) (Finset.mem_range.mpr (by omega : n < s.N + 1))
      simp only [hδ] at s1 s2 ⊢
      linarith) (fun k hk => by
      have s1 := Finset.single_le_sum (f := fun k => |s.q.val (env a) k s.N - s.q.val (env a₀) k s.N|) (fun _ _ => abs_nonneg _)
        (Finset.mem_range.mpr hk)
      simp only [hδ] at s1 ⊢
      linarith)
    simp only [Scheme.cost, hdec]
    calc _ = |(ψ (s.x.val (env a)) (fun k => s.q.val (env a) k s.N) (w a) - ψ X₀ q₀ (w a)) + (ψ X₀ q₀ (w a) - ψ X₀ q₀ (w a₀))| := by ring_nf; rfl
      _ ≤ _ := (abs_add_le _ _).trans (add_le_add h1 le_rfl)
  have hclosed : IsClosed {a | ∀ c, s.cost (Γ c) (env a) ≤ 0} := by
    rw [setOf_forall]
    exact isClosed_iInter fun c => isClosed_le (hcost _ (hΓ c) (hΓc c)) continuous_const
  obtain ⟨e₀, f₀⟩ := feas
  obtain ⟨a₀, ha₀⟩ := f₀.mem
  obtain ⟨a, ha, hmin⟩ := hclosed.isCompact.exists_isMinOn ⟨a₀, fun c => by
    rw [huniq _ _ (heq a₀) f₀.eq ((hdec a₀).trans ha₀) _ (hΓ c)]
    exact f₀.con c⟩ (hcost φ hφ hφc).continuousOn
  refine ⟨env a, ⟨heq a, ⟨a, (hdec a).symm⟩, ha⟩, fun e' f' => ?_⟩
  obtain ⟨a', ha'⟩ := f'.mem
  have hd : s.decision (env a') = s.decision e' := (hdec a').trans ha'
  rw [← huniq _ _ (heq a') f'.eq hd φ hφ]
  exact hmin fun c => by
    rw [huniq _ _ (heq a') f'.eq hd _ (hΓ c)]
    exact f'.con c

section
variable (fresh freshI : String → ℕ) (casadiPoints : ℕ → String → Except PyErr (List ℝ))
    (csFunction : List (MXExpr ℝ) → List (MXExpr ℝ) → Except PyErr (CsFn ℝ))
    (dae : DaeObj ℝ) (t : List ℝ) (order : ℕ) (method : String) (tdp_fun : Option (ℝ → Mat ℝ))
    (d : DaeObj ℝ) (xdot res : MXExpr ℝ) (tau : List ℝ) (F : CsFn ℝ) (rep : Bool) (s : Scheme ℝ)

/-- **C140** (continuity) The solutions of the collocation equations of a regular model, with small steps, depend continuously on the
initial state, the inputs and the parameters, if the model does. -/
theorem C140_continuous (hcs : IsCsFunction csFunction)
    (pre : SchemePre freshI casadiPoints csFunction dae t order method tdp_fun d xdot res tau F)
    (hs : Scheme.new fresh freshI casadiPoints csFunction dae t order method tdp_fun rep = .ok s)
    (hf : [fresh "x", fresh "K", fresh "Z", fresh "u", fresh "P"].Nodup)
    (L Lz G Gz θ : ℝ) (reg : RegularDae d xdot res L Lz G Gz) (Lq Lqz : ℝ) (lip : LipschitzQuadZ d Lq Lqz)
    (T : ButcherTableau ℝ) (hT : butcherTableuForCollocationPoints tau = .ok T) (α H : ℝ)
    (hα : ∀ j < s.M, ∑ k ∈ Finset.range s.M, |T.A.e [j, k]| ≤ α)
    (ht : ∀ n < s.N, nd t n ≤ nd t (n + 1) ∧ nd t (n + 1) - nd t n ≤ H) (hθ : θ < 1) (hstep : L * (H * α) ≤ θ)
    (A : Type) [TopologicalSpace A] (hres : ContinuousInData d xdot res) (hquad : ContinuousInData d xdot d.quad)
    (env : A → Env ℝ) (heq : ∀ a, ∀ v ∈ s.eq.vals (env a), v = 0)
    (hx : ∀ i < d.nx, Continuous fun a => s.x.val (env a) i 0)
    (hu : ∀ n < s.N, ∀ k < d.nu, Continuous fun a => s.u.val (env a) k n)
    (hp : ∀ i < d.np, Continuous fun a => s.p.val (env a) i 0) :
    (∀ n ≤ s.N, (∀ i < d.nx, Continuous fun a => s.x.val (env a) i n) ∧ ∀ k < d.nq, Continuous fun a => s.q.val (env a) k n) ∧
    ∀ c < s.N * s.M, (∀ i < d.nx, Continuous fun a => s.Kd.val (env a) i c) ∧ (∀ i < d.nx, Continuous fun a => s.X.val (env a) i c) ∧
      ∀ k < d.nz, Continuous fun a => s.Z.val (env a) k c := by
  have b := pre.built hs
  have hN := b.N_eq
  have hM := b.M_eq
  have hpos := pre.pos
  have hnp : d.np = d.p.rows := by simp [DaeObj.np, MXExpr.numel, pre.p]
  have hnq : d.nq = d.quad.rows := by simp [DaeObj.nq, MXExpr.numel, pre.quad]
  have hnu : d.nu = d.u.rows := pre.wf.nu
  have hθ' : 1 - θ ≠ 0 := by linarith
  obtain ⟨xu, xP, Ku, KP, Zu, ZP⟩ : fresh "x" ≠ fresh "u" ∧ fresh "x" ≠ fresh "P" ∧ fresh "K" ≠ fresh "u" ∧ fresh "K" ≠ fresh "P" ∧
      fresh "Z" ≠ fresh "u" ∧ fresh "Z" ≠ fresh "P" := by
    simp only [List.nodup_cons, List.mem_cons, List.not_mem_nil, or_false, not_or] at hf
    tauto
  -- continuity at `a₀` of the states, derivatives, algebraic states and quadrature expressions
  have main : ∀ a₀ : A, (∀ n ≤ s.N, ∀ i < d.nx, ContinuousAt (fun a => s.x.val (env a) i n) a₀) ∧
      ∀ n < s.N, ∀ j < s.M, (∀ i < d.nx, ContinuousAt (fun a => s.Kd.val (env a) i (n * s.M + j)) a₀) ∧
        (∀ i < d.nx, ContinuousAt (fun a => s.X.val (env a) i (n * s.M + j)) a₀) ∧
        (∀ k < d.nz, ContinuousAt (fun a => s.Z.val (env a) k (n * s.M + j)) a₀) ∧
        ∀ k < d.nq, ContinuousAt (fun a => s.quad.val (env a) k (n * s.M + j)) a₀ := by
    intro a₀
    let e0 : A → Env ℝ := fun a id i c => if id = fresh "u" ∨ id = fresh "P" then env a id i c else env a₀ id i c
    have e00 : e0 a₀ = env a₀ := by
      funext id i c
      simp only [e0]
      split_ifs <;> rfl
    have ex : ∀ a i c, e0 a (fresh "x") i c = env a₀ (fresh "x") i c := fun a i c => by simp [e0, xu, xP]
    have eK : ∀ a i c, e0 a (fresh "K") i c = env a₀ (fresh "K") i c := fun a i c => by simp [e0, Ku, KP]
    have eZ : ∀ a i c, e0 a (fresh "Z") i c = env a₀ (fresh "Z") i c := fun a i c => by simp [e0, Zu, ZP]
    have eu : ∀ a i c, e0 a (fresh "u") i c = env a (fresh "u") i c := fun a i c => by simp [e0]
    have eP : ∀ a i c, e0 a (fresh "P") i c = env a (fresh "P") i c := fun a i c => by simp [e0]
    have sx : ∀ e : Env ℝ, s.x.val e = e (fresh "x") := fun e => by rw [b.x]; rfl
    have sK : ∀ e : Env ℝ, s.Kd.val e = e (fresh "K") := fun e => by rw [b.Kd]; rfl
    have sZ : ∀ e : Env ℝ, s.Z.val e = e (fresh "Z") := fun e => by rw [b.Z]; rfl
    have su : ∀ e : Env ℝ, s.u.val e = e (fresh "u") := fun e => by rw [b.u]; rfl
    have sP : ∀ e : Env ℝ, s.p.val e = e (fresh "P") := fun e => by rw [b.p]; rfl
    have hpar : ∀ a, ∀ c < (t.length - 1) * order, ∀ i < d.np, env a (fresh "P") i (if rep then c else 0) = env a (fresh "P") i 0 := by
      intro a c hc i hi
      cases hr : rep
      · rfl
      · have := ((Scheme.eq_zero_iff pre b (env a)).mp (heq a)).2.2 hr c hc i hi
        rw [sP] at this
        exact this
    have eX : ∀ a i n j, n < t.length - 1 → j < order → s.X.val (e0 a) i (n * order + j) = s.X.val (env a₀) i (n * order + j) := by
      intro a i n j hn hj
      rw [b.X _ i n j hn hj, b.X _ i n j hn hj, ex]
      simp only [eK]
    -- the values at a point of the collocation interval
    have hpt : ∀ n < t.length - 1, ∀ j < order, ∃ (e : A → Env ℝ), (∀ a, AtPoint s d xdot tdp_fun rep (e0 a) (e a) (n * order + j)) ∧
        ∀ a, PointVals d xdot (fun i => env a₀ (fresh "K") i (n * order + j)) (fun i => s.X.val (env a₀) i (n * order + j))
          (fun i => env a₀ (fresh "Z") i (n * order + j)) (fun i => env a (fresh "u") i n) (fun i => env a (fresh "P") i 0)
          (nd s.tc (n * order + j)) (tdpAt tdp_fun (nd s.tc (n * order + j))).e (e a) := by
      intro n hn j hj
      have hc : n * order + j < (t.length - 1) * order := block_lt hn hj
      choose e he using fun a => exists_atPoint hcs pre b.toCore (e0 a) hc
      refine ⟨e, he, fun a => ?_⟩
      have v := (he a).vals pre b.toCore
      rw [div_block hj] at v
      refine ⟨fun i hi => (v.xdot i hi).trans (eK a i _), fun i hi => (v.x i hi).trans (eX a i n j hn hj), fun i hi => (v.z i hi).trans (eZ a i _),
        fun i hi => (v.u i hi).trans (eu a i _), fun i hi => ?_, v.t, v.tdp⟩
      rw [v.p i hi, eP]
      exact hpar a _ hc i (by rw [hnp]; exact hi)
    have hcu : ∀ n < t.length - 1, ∀ i < d.u.rows, Continuous fun a => env a (fresh "u") i n := fun n hn i hi => by
      have := hu n (by omega) i (by omega)
      simpa only [su] using this
    have hcp : ∀ i < d.p.rows, Continuous fun a => env a (fresh "P") i 0 := fun i hi => by
      have := hp i (by omega)
      simpa only [sP] using this
    have hcoll : ∀ n < t.length - 1, ∀ j < order, (∀ i < res.rows, Continuous fun a => s.eqCollocation.val (e0 a) i (n * order + j)) ∧
        ∀ k < d.nq, Continuous fun a => s.quad.val (e0 a) k (n * order + j) := by
      intro n hn j hj
      obtain ⟨e, he, hv⟩ := hpt n hn j hj
      have hc : n * order + j < (t.length - 1) * order := block_lt hn hj
      refine ⟨fun i hi => ?_, fun k hk => ?_⟩
      · have := hres A _ _ (hcu n hn) hcp _ _ _ _ _ e hv i hi
        refine this.congr fun a => ?_
        exact (((he a).out hcs pre b.toCore hc).1 i hi).symm
      · rw [hnq] at hk
        have := hquad A _ _ (hcu n hn) hcp _ _ _ _ _ e hv k hk
        refine this.congr fun a => ?_
        exact (((he a).out hcs pre b.toCore hc).2 k hk).symm
    set tol : A → ℝ := fun a => ∑ c ∈ Finset.range ((t.length - 1) * order), ∑ i ∈ Finset.range res.rows, |s.eqCollocation.val (e0 a) i c|
      with htol
    have hsplit : ∀ c < (t.length - 1) * order, ∃ n j, n < t.length - 1 ∧ j < order ∧ c = n * order + j := fun c hc =>
      ⟨c / order, c % order, Nat.div_lt_of_lt_mul (by rwa [Nat.mul_comm]), Nat.mod_lt _ hpos, (Nat.div_add_mod' c order).symm⟩
    have tol0 : ∀ a, 0 ≤ tol a := fun a => Finset.sum_nonneg fun _ _ => Finset.sum_nonneg fun _ _ => abs_nonneg _
    have tolc : Tendsto tol (𝓝 a₀) (𝓝 0) := by
      have hc : Continuous tol := continuous_finsetSum _ fun c hc => continuous_finsetSum _ fun i hi => by
        obtain ⟨n, j, hn, hj, rfl⟩ := hsplit c (Finset.mem_range.mp hc)
        exact ((hcoll n hn j hj).1 i (Finset.mem_range.mp hi)).abs
      have h0 : tol a₀ = 0 := by
        refine Finset.sum_eq_zero fun c hc => Finset.sum_eq_zero fun i hi => ?_
        rw [e00, ((Scheme.eq_zero_iff pre b (env a₀)).mp (heq a₀)).1 c (Finset.mem_range.mp hc) i (Finset.mem_range.mp hi), abs_zero]
      have := hc.tendsto a₀
      rwa [h0] at this
    have htols : ∀ a, ∀ v ∈ s.eq.vals (e0 a), |v| ≤ tol a := by
      intro a v hv
      unfold Scheme.eq at hv
      rw [structMX_vals] at hv
      simp only [stackedVals, List.map_cons, List.map_nil, List.flatten_cons, List.flatten_nil, List.append_nil, List.mem_append] at hv
      have z₀ := (Scheme.eq_zero_iff pre b (env a₀)).mp (heq a₀)
      have za := heq a
      unfold Scheme.eq at za
      rw [structMX_vals] at za
      simp only [stackedVals, List.map_cons, List.map_nil, List.flatten_cons, List.flatten_nil, List.append_nil, List.mem_append] at za
      rcases hv with hv | hv | hv
      · refine vals_bound _ _ _ (fun i hi c hc => ?_) v hv
        rw [b.coll_shape.1, ← pre.wf.res_rows] at hi
        rw [b.coll_shape.2] at hc
        refine le_trans ?_ (Finset.single_le_sum (f := fun c => ∑ i ∈ Finset.range res.rows, |s.eqCollocation.val (e0 a) i c|)
          (fun _ _ => Finset.sum_nonneg fun _ _ => abs_nonneg _) (Finset.mem_range.mpr hc))
        exact Finset.single_le_sum (f := fun i => |s.eqCollocation.val (e0 a) i c|) (fun _ _ => abs_nonneg _) (Finset.mem_range.mpr hi)
      · refine vals_bound _ _ _ (fun i hi n hn => ?_) v hv
        rw [b.cont_shape.1, ← pre.wf.nx] at hi
        rw [b.cont_shape.2] at hn
        have h1 := z₀.2.1 n hn i hi
        rw [b.cont _ i n hn] at h1 ⊢
        simp only [ex, eK]
        rw [h1, abs_zero]
        exact tol0 a
      · have : v = 0 := za v (.inr (.inr (by
          rw [b.param] at hv ⊢
          obtain ⟨k, hk, rfl⟩ := List.mem_map.mp hv
          refine List.mem_map.mpr ⟨k, hk, ?_⟩
          simp only [MXExpr.diffCols, sP, eP])))
        rw [this, abs_zero]
        exact tol0 a
    set eps : A → ℝ := fun a => ∑ i ∈ Finset.range d.nx, |s.x.val (env a) i 0 - s.x.val (env a₀) i 0| with heps
    have eps0 : ∀ a, 0 ≤ eps a := fun a => Finset.sum_nonneg fun _ _ => abs_nonneg _
    have epsc : Tendsto eps (𝓝 a₀) (𝓝 0) := by
      have hc : Continuous eps := continuous_finsetSum _ fun i hi => ((hx i (Finset.mem_range.mp hi)).sub continuous_const).abs
      have h0 : eps a₀ = 0 := Finset.sum_eq_zero fun i _ => by rw [sub_self, abs_zero]
      have := hc.tendsto a₀
      rwa [h0] at this
    set β := ∑ k ∈ Finset.range s.M, |T.b.e [k]| with hβ
    have key := fun a => C97_inexact fresh freshI casadiPoints csFunction dae t order method tdp_fun d xdot res tau F rep s hcs pre hs L Lz G Gz θ
      reg T hT α β H hα le_rfl ht hθ hstep (env a) (e0 a) 0 (tol a) (eps a) (fun v hv => by rw [heq a v hv, abs_zero]) (htols a)
      ⟨le_rfl, tol0 a⟩ (fun n _ i _ => by rw [su, su, eu]) (fun c _ i _ => by rw [sP, sP, eP]) (eps0 a)
      (fun i hi => by
        rw [sx (e0 a), ex, ← sx (env a₀)]
        exact Finset.single_le_sum (f := fun i => |s.x.val (env a) i 0 - s.x.val (env a₀) i 0|) (fun _ _ => abs_nonneg _) (Finset.mem_range.mpr hi))
    simp only [zero_add] at key
    set bd : ℕ → A → ℝ := fun n a => Real.exp (β * L / (1 - θ) * (nd t n - nd t 0)) *
      (eps a + (nd t n - nd t 0) * (β * G / (1 - θ) * tol a) + n * tol a) with hbd
    have bdc : ∀ n, Tendsto (bd n) (𝓝 a₀) (𝓝 0) := fun n => by
      have := ((epsc.add ((tolc.const_mul (β * G / (1 - θ))).const_mul (nd t n - nd t 0))).add (tolc.const_mul (n : ℝ))).const_mul
        (Real.exp (β * L / (1 - θ) * (nd t n - nd t 0)))
      simp only [mul_zero, add_zero] at this
      exact this
    have Xc : ∀ n, Tendsto (fun a => (bd n a + H * α * (G * tol a)) / (1 - θ)) (𝓝 a₀) (𝓝 0) := fun n => by
      have := ((bdc n).add ((tolc.const_mul G).const_mul (H * α))).div_const (1 - θ)
      simpa using this
    have Kc : ∀ n, Tendsto (fun a => (L * bd n a + G * tol a) / (1 - θ)) (𝓝 a₀) (𝓝 0) := fun n => by
      have := (((bdc n).const_mul L).add (tolc.const_mul G)).div_const (1 - θ)
      simpa using this
    have Zc : ∀ n, Tendsto (fun a => Lz * ((bd n a + H * α * (G * tol a)) / (1 - θ)) + Gz * tol a) (𝓝 a₀) (𝓝 0) := fun n => by
      have := ((Xc n).const_mul Lz).add (tolc.const_mul Gz)
      simpa using this
    refine ⟨fun n hn i hi => continuousAt_of_bound (fun a => ?_) (bdc n), fun n hn j hj => ?_⟩
    · have := (key a).1 n hn i hi
      rwa [sx (e0 a), ex, ← sx (env a₀)] at this
    have k2 := fun a => (key a).2 n hn j hj
    rw [hM] at hj k2 ⊢
    have hn' : n < t.length - 1 := by omega
    refine ⟨fun i hi => continuousAt_of_bound (fun a => ?_) (Kc n), fun i hi => continuousAt_of_bound (fun a => ?_) (Xc n),
      fun k hk => continuousAt_of_bound (fun a => ?_) (Zc n), fun k hk => ?_⟩
    · have := ((k2 a).1 i hi).1
      rwa [sK (e0 a), eK, ← sK (env a₀)] at this
    · have := ((k2 a).1 i hi).2
      rwa [eX a i n j hn' hj] at this
    · have := (k2 a).2 k hk
      rwa [sZ (e0 a), eZ, ← sZ (env a₀)] at this
    · have hc : n * order + j < (t.length - 1) * order := block_lt hn' hj
      have hq0 : Tendsto (fun a => s.quad.val (e0 a) k (n * order + j) - s.quad.val (env a₀) k (n * order + j)) (𝓝 a₀) (𝓝 0) := by
        have := (((hcoll n hn' j hj).2 k hk).sub continuous_const).tendsto a₀ (f := fun a => s.quad.val (e0 a) k (n * order + j) -
          s.quad.val (env a₀) k (n * order + j))
        simpa only [e00, sub_self] using this
      have hB : Tendsto (fun a => (Lq * ((bd n a + H * α * (G * tol a)) / (1 - θ)) +
          Lqz * (Lz * ((bd n a + H * α * (G * tol a)) / (1 - θ)) + Gz * tol a)) +
          |s.quad.val (e0 a) k (n * order + j) - s.quad.val (env a₀) k (n * order + j)|) (𝓝 a₀) (𝓝 0) := by
        have := (((Xc n).const_mul Lq).add ((Zc n).const_mul Lqz)).add hq0.abs
        simpa using this
      refine continuousAt_of_bound (fun a => ?_) hB
      obtain ⟨e1, a1⟩ := exists_atPoint hcs pre b.toCore (env a) hc
      obtain ⟨e2, a2⟩ := exists_atPoint hcs pre b.toCore (e0 a) hc
      have v1 := a1.vals pre b.toCore
      have v2 := a2.vals pre b.toCore
      have hlip := lip e1 e2 (fun i hi => by rw [v1.u i hi, v2.u i hi, eu]) (fun i hi => by rw [v1.p i hi, v2.p i hi, eP]) (by rw [v1.t, v2.t])
        (fun i hi l hl => by rw [v1.tdp i hi l hl, v2.tdp i hi l hl]) _ _ (fun i hi => by
          have hi' : i < d.x.rows := by rw [← pre.wf.nx]; exact hi
          rw [v1.x i hi', v2.x i hi']
          exact ((k2 a).1 i hi).2) (fun l hl => by
          have hl' : l < d.z.rows := by rw [← pre.wf.nz]; exact hl
          have := (k2 a).2 l hl
          rw [sZ, sZ] at this
          rw [v1.z l hl', v2.z l hl']
          exact this) k hk
      rw [← (a1.out hcs pre b.toCore hc).2 k (by rw [← hnq]; exact hk), ← (a2.out hcs pre b.toCore hc).2 k (by rw [← hnq]; exact hk)] at hlip
      calc |s.quad.val (env a) k (n * order + j) - s.quad.val (env a₀) k (n * order + j)| =
          |(s.quad.val (env a) k (n * order + j) - s.quad.val (e0 a) k (n * order + j)) +
            (s.quad.val (e0 a) k (n * order + j) - s.quad.val (env a₀) k (n * order + j))| := by ring_nf
        _ ≤ _ := (abs_add_le _ _).trans (add_le_add hlip le_rfl)
  refine ⟨fun n hn => ⟨fun i hi => continuous_iff_continuousAt.mpr fun a₀ => (main a₀).1 n hn i hi, fun k hk => ?_⟩, fun c hc => ?_⟩
  · induction n with
    | zero =>
      have : (fun a => s.q.val (env a) k 0) = fun _ => 0 := by funext a; exact b.q_zero _ _
      rw [this]
      exact continuous_const
    | succ n ih =>
      have : (fun a => s.q.val (env a) k (n + 1)) = fun a => s.q.val (env a) k n +
          (nd t (n + 1) - nd t n) * ∑ j ∈ Finset.range order, s.quad.val (env a) k (n * order + j) * wb tau j := by
        funext a
        exact b.q _ _ _ (by omega)
      rw [this]
      refine (ih (by omega)).add (continuous_const.mul (continuous_finsetSum _ fun j hj => Continuous.mul ?_ continuous_const))
      have hj := Finset.mem_range.mp hj
      refine continuous_iff_continuousAt.mpr fun a₀ => ?_
      have := ((main a₀).2 n (by omega) j (by omega)).2.2.2 k hk
      rwa [hM] at this
  · have hMpos : 0 < s.M := by omega
    have e : c = c / s.M * s.M + c % s.M := (Nat.div_add_mod' c s.M).symm
    have h1 : c / s.M < s.N := Nat.div_lt_of_lt_mul (by rwa [Nat.mul_comm])
    have h2 := Nat.mod_lt c hMpos
    rw [e]
    exact ⟨fun i hi => continuous_iff_continuousAt.mpr fun a₀ => ((main a₀).2 _ h1 _ h2).1 i hi,
      fun i hi => continuous_iff_continuousAt.mpr fun a₀ => ((main a₀).2 _ h1 _ h2).2.1 i hi,
      fun i hi => continuous_iff_continuousAt.mpr fun a₀ => ((main a₀).2 _ h1 _ h2).2.2.1 i hi⟩

/-- **C140** (existence) Under the assumptions of the small steps, with a decision that depends continuously on a point of a compact set and
costs and constraints that depend continuously on it: if the discretised problem has a feasible solution, it has an optimal solution. -/
theorem C140_exists (hcs : IsCsFunction csFunction)
    (pre : SchemePre freshI casadiPoints csFunction dae t order method tdp_fun d xdot res tau F)
    (hs : Scheme.new fresh freshI casadiPoints csFunction dae t order method tdp_fun rep = .ok s)
    (hf : [fresh "x", fresh "K", fresh "Z", fresh "u", fresh "P"].Nodup)
    (L Lz G Gz θ : ℝ) (reg : RegularDae d xdot res L Lz G Gz) (hsol : Solvable d xdot res) (Lq Lqz : ℝ) (lip : LipschitzQuadZ d Lq Lqz)
    (T : ButcherTableau ℝ) (hT : butcherTableuForCollocationPoints tau = .ok T) (α H : ℝ)
    (hα : ∀ j < s.M, ∑ k ∈ Finset.range s.M, |T.A.e [j, k]| ≤ α)
    (ht : ∀ n < s.N, nd t n ≤ nd t (n + 1) ∧ nd t (n + 1) - nd t n ≤ H) (hθ : θ < 1) (hstep : L * (H * α) ≤ θ)
    (hres : ContinuousInData d xdot res) (hquad : ContinuousInData d xdot d.quad)
    (A : Type) [TopologicalSpace A] [CompactSpace A] (w : A → Decision)
    (hx : ∀ i < d.nx, Continuous fun a => (w a).x0 i) (hu : ∀ n < s.N, ∀ k < d.nu, Continuous fun a => (w a).u k n)
    (hp : ∀ i < d.np, Continuous fun a => (w a).p i)
    {ι : Type} (φ : CostFn) (Γ : ι → CostFn) (Λ : ℝ) (hφ : LipschitzCost d.nx d.nq s.N Λ φ) (hΓ : ∀ c, LipschitzCost d.nx d.nq s.N Λ (Γ c))
    (hφc : ∀ X q, Continuous fun a => φ X q (w a)) (hΓc : ∀ c X q, Continuous fun a => Γ c X q (w a))
    (feas : ∃ env, Feasible s (range w) Γ env) : ∃ env, Optimal s (range w) φ Γ env := by
  have b := pre.built hs
  have hL := reg.nonneg.1
  have hH : 0 ≤ H := by
    have := ht 0 (by rw [b.N_eq]; have := pre.two; omega)
    linarith
  have hex : ∀ a, ∃ e, (∀ v ∈ s.eq.vals e, v = 0) ∧ s.decision e = w a := fun a => by
    obtain ⟨e, h1, h2⟩ := exists_decision hf b (w a)
    obtain ⟨e', k1, k2, k3, k4⟩ := C88_exists fresh freshI casadiPoints csFunction dae t order method tdp_fun d xdot res tau F rep s hcs pre hs hf
      L Lz θ (reg.indexOne pre.wf.res_cols) hsol hθ T hT (fun n hn j hj => by
        have hh := ht n hn
        rw [abs_of_nonneg (by linarith)]
        refine le_trans (mul_le_mul_of_nonneg_left ?_ hL) hstep
        exact mul_le_mul hh.2 (hα j hj) (Finset.sum_nonneg fun _ _ => abs_nonneg _) hH) e (fun _ c _ i _ => by rw [h2, h2]) (w a).x0
    refine ⟨e', k1, ?_⟩
    have e1 : s.u.val e' = (w a).u := by funext i n; rw [k3, h1]
    have e2 : (fun i => s.p.val e' i 0) = (w a).p := by funext i; rw [k4, h2]
    have e3 : (fun i => s.x.val e' i 0) = (w a).x0 := by funext i; rw [k2]
    rw [Scheme.decision, e1, e2, e3]
  exact optimal_core hex (fun A _ env heq h1 h2 h3 => (C140_continuous fresh freshI casadiPoints csFunction dae t order method tdp_fun d xdot res tau
    F rep s hcs pre hs hf L Lz G Gz θ reg Lq Lqz lip T hT α H hα ht hθ hstep A hres hquad env heq h1 h2 h3).1) hx hu hp hφ hΓ hφc hΓc feas

end

theorem relax_regular (freshI : String → ℕ) : RegularDae (odeUD freshI 1 0 1 0 relaxF fun _ _ => 0) (.sym (freshI "xdot") 1)
    (odeRes freshI 1 relaxF) 1 0 1 0 := by
  refine ⟨⟨zero_le_one, zero_le_one⟩, fun e e' _ hp _ _ δ ρ _ _ hx hr => ⟨fun i hi => ?_, fun k hk => absurd hk (Nat.not_lt_zero _)⟩⟩
  have h1 : |(e (freshI "xdot") i 0 - (e 3 0 0 - e 0 0 0)) - (e' (freshI "xdot") i 0 - (e' 3 0 0 - e' 0 0 0))| ≤ ρ := by
    have h := hr i hi
    have hi : i < 1 := hi
    simp only [odeRes, hi, if_true, relaxF] at h
    exact h
  have h2 : e 3 0 0 = e' 3 0 0 := hp 0 Nat.one_pos
  have h3 : |e 0 0 0 - e' 0 0 0| ≤ δ := hx 0 Nat.one_pos
  change |e (freshI "xdot") i 0 - e' (freshI "xdot") i 0| ≤ _
  rw [h2] at h1
  rw [abs_le] at h1 h3 ⊢
  constructor <;> linarith

/-- The initial state 0 and the parameter `a` in [-1, 1]. -/
def relaxW (a : Icc (-1 : ℝ) 1) : Decision := ⟨fun _ _ => 0, fun _ => a, fun _ => 0⟩

/-- For `x' = p - x`, `x(0) = 0` and the midpoint rule on any grid with steps of at most 1: among the parameters in [-1, 1] for which the
final state is at most `m` there is one that brings the computed final state closest to `c`. -/
example (freshI : String → ℕ) (hI : 6 ≤ freshI "xdot") (t : List ℝ) (two : 2 ≤ t.length) (c m : ℝ) (hm : 0 ≤ m)
    (ht : ∀ n < t.length - 1, nd t n ≤ nd t (n + 1) ∧ nd t (n + 1) - nd t n ≤ 1) : ∃ s env,
    Scheme.new exFresh freshI (fun _ _ => .ok [1 / 2]) idealCsFunction (odeUO 1 0 1 0 relaxF fun _ _ => 0) t 1 "legendre" none = .ok s ∧
    Optimal s (range relaxW) (missBy s.N c) (fun (_ : Unit) X _ _ => X 0 s.N - m) env := by
  obtain ⟨F, pre⟩ := odeU_pre freshI hI 1 0 1 0 relaxF (fun _ _ => 0) (fun e e' hx hu hp ht => ⟨fun i hi => by
    simp [relaxF, hx 0 Nat.one_pos, hp 0 Nat.one_pos], fun _ _ => rfl⟩) rfl t [1 / 2] two (by simp)
  have pre : SchemePre freshI (fun _ _ => .ok [1 / 2]) idealCsFunction (odeUO 1 0 1 0 relaxF fun _ _ => 0) t 1 "legendre" none
    (odeUD freshI 1 0 1 0 relaxF fun _ _ => 0) (.sym (freshI "xdot") 1) (odeRes freshI 1 relaxF) [1 / 2] F := pre
  obtain ⟨s, hs⟩ := C26_constructed exFresh freshI _ _ _ _ _ _ _ _ _ _ _ _ false pre
  have b := pre.built hs
  have hN : s.N = t.length - 1 := b.N_eq
  have hM : s.M = 1 := b.M_eq
  obtain ⟨T, hT, hA, -, -⟩ := C09_butcher_consistent ([1 / 2] : List ℝ) (by simp) (by simp)
  obtain ⟨T', hT', -, -, -, hc, -⟩ := C08_butcher_exact ([1 / 2] : List ℝ) (by simp)
  rw [hT] at hT'
  cases hT'
  have hA0 : T.A.e [0, 0] = 1 / 2 := by
    have := hA 0 (by simp)
    rw [hc 0 (by simp)] at this
    simpa using this
  have hl : LipschitzCost 1 0 s.N 1 (fun X _ _ => X 0 s.N - m) := fun X X' q q' w δ h _ => by
    rw [one_mul, sub_sub_sub_cancel_right]
    exact h s.N le_rfl 0 Nat.one_pos
  have := C140_exists exFresh freshI _ _ _ _ _ _ _ _ _ _ _ _ false s idealCsFunction_spec pre hs (by decide) 1 0 1 0 (1 / 2) (relax_regular freshI)
    (relax_index freshI).2 0 0 (fun e e' _ _ _ _ δ η _ _ k hk => absurd hk (Nat.not_lt_zero _)) T hT (1 / 2) 1 (fun j hj => by
      rw [hM] at hj ⊢
      obtain rfl : j = 0 := by omega
      simp [hA0]) (fun n hn => ht n (by omega)) (by norm_num) (by norm_num)
    (fun A _ u p _ hp v ξ ζ τ r env h i hi => by
      have e1 : (fun a => (odeRes freshI 1 relaxF).val (env a) i 0) = fun a => v i - (p a 0 - ξ 0) := by
        funext a
        have h1 : env a (freshI "xdot") i 0 = v i := (h a).xdot i hi
        have h2 : env a 0 0 0 = ξ 0 := (h a).x 0 Nat.one_pos
        have h3 : env a 3 0 0 = p a 0 := (h a).p 0 Nat.one_pos
        have hi : i < 1 := hi
        simp only [odeRes, hi, if_true, relaxF, h1, h2, h3]
      rw [e1]
      exact continuous_const.sub ((hp 0 Nat.one_pos).sub continuous_const))
    (fun A _ u p _ _ v ξ ζ τ r env _ i hi => absurd hi (Nat.not_lt_zero _))
    (Icc (-1 : ℝ) 1) relaxW (fun _ _ => continuous_const) (fun _ _ _ _ => continuous_const) (fun _ _ => continuous_subtype_val)
    (missBy s.N c) (fun (_ : Unit) X _ _ => X 0 s.N - m) 1 (missBy_lipschitz _ _ _) (fun _ => hl) (fun _ _ => continuous_const)
    (fun _ _ _ => continuous_const) ⟨fun _ _ _ => 0, (Scheme.eq_zero_iff pre b _).mpr ⟨fun k hk i hi => ?_, fun n hn i hi => ?_, ?_⟩,
      ⟨⟨0, by simp⟩, ?_⟩, fun _ => ?_⟩
  · obtain ⟨env, h⟩ := this
    exact ⟨s, env, hs, h⟩
  · obtain ⟨e, a⟩ := exists_atPoint idealCsFunction_spec pre b.toCore (fun _ _ _ => (0 : ℝ)) hk
    have v := a.vals pre b.toCore
    rw [(a.out idealCsFunction_spec pre b.toCore hk).1 i hi]
    refine (ode_residual freshI 1 relaxF e).mpr (fun i hi => ?_) i hi 0 Nat.one_pos
    have h1 : e (freshI "xdot") i 0 = 0 := v.xdot i hi
    have h2 : e 0 0 0 = _ := v.x 0 Nat.one_pos
    have h3 : e 3 0 0 = 0 := v.p 0 Nat.one_pos
    have h4 := b.X (fun _ _ _ => (0 : ℝ)) 0 k 0 (by omega) Nat.one_pos
    simp only [mul_one, add_zero] at h4
    rw [h1, relaxF, h2, h3, h4]
    simp
  · rw [b.cont _ i n hn]
    simp
  · intro h
    cases h
  · rw [Scheme.decision, b.u, b.p, b.x]
    rfl
  · simp only [Scheme.cost]
    rw [b.x]
    show (0 : ℝ) - m ≤ 0
    linarith

end CE
