import Verif.Num.PropsConverge2

/-!
# Property C88: differential-algebraic models of index one
-/

open Set

namespace CE

/-- The assignment gives the symbols of the model these values: the state derivative `v`, the state `ξ`, the algebraic state `w`, the
input `u`, the parameter `p`, the time `τ` and the time-dependent parameter `q`. -/
structure PointVals (d : DaeObj ℝ) (xdot : MXExpr ℝ) (v ξ w u p : ℕ → ℝ) (τ : ℝ) (q : ℕ → ℕ → ℝ) (e : Env ℝ) : Prop where
  xdot : ∀ i < d.x.rows, xdot.val e i 0 = v i
  x : ∀ i < d.x.rows, d.x.val e i 0 = ξ i
  z : ∀ i < d.z.rows, d.z.val e i 0 = w i
  u : ∀ i < d.u.rows, d.u.val e i 0 = u i
  p : ∀ i < d.p.rows, d.p.val e i 0 = p i
  t : d.t.val e 0 0 = τ
  tdp : ∀ i < d.tdp.rows, ∀ j < d.tdp.cols, d.tdp.val e i j = q i j

/-- Where the residual vanishes, the state derivative and the algebraic state depend Lipschitz continuously on the state, with the
constants `L` and `Lz` (maximum norm), for equal values of the other symbols. -/
structure IndexOne (d : DaeObj ℝ) (xdot res : MXExpr ℝ) (L Lz : ℝ) : Prop where
  nonneg : 0 ≤ L
  lipschitz : ∀ e e' : Env ℝ, ResidualZero res e → ResidualZero res e' →
    (∀ i < d.u.rows, d.u.val e i 0 = d.u.val e' i 0) → (∀ i < d.p.rows, d.p.val e i 0 = d.p.val e' i 0) →
    d.t.val e 0 0 = d.t.val e' 0 0 → (∀ i < d.tdp.rows, ∀ j < d.tdp.cols, d.tdp.val e i j = d.tdp.val e' i j) →
    ∀ δ, 0 ≤ δ → (∀ i < d.x.rows, |d.x.val e i 0 - d.x.val e' i 0| ≤ δ) →
      (∀ i < d.x.rows, |xdot.val e i 0 - xdot.val e' i 0| ≤ L * δ) ∧ ∀ k < d.z.rows, |d.z.val e k 0 - d.z.val e' k 0| ≤ Lz * δ

/-- For all values of the state, the input, the parameter, the time and the time-dependent parameter there are a state derivative and an
algebraic state for which the residual vanishes. -/
def Solvable (d : DaeObj ℝ) (xdot res : MXExpr ℝ) : Prop :=
  ∀ (ξ u p : ℕ → ℝ) (τ : ℝ) (q : ℕ → ℕ → ℝ), ∃ v w : ℕ → ℝ, ∀ e, PointVals d xdot v ξ w u p τ q e → ResidualZero res e

/-- `y`, `ζ` is a solution of the model on the grid `t`, with the inputs `u` (constant on the intervals) and the parameter `p`: on every
interval the states `y` have the derivatives `f n`, and the residual of the model vanishes for the algebraic states `ζ n`. -/
structure ExactDae (d : DaeObj ℝ) (xdot res : MXExpr ℝ) (tdp_fun : Option (ℝ → Mat ℝ)) (t : List ℝ) (u : ℕ → ℕ → ℝ) (p : ℕ → ℝ)
    (y : ℕ → ℝ → ℝ) (f ζ : ℕ → ℕ → ℝ → ℝ) : Prop where
  deriv : ∀ n < t.length - 1, ∀ i < d.nx, ∀ τ ∈ Icc (nd t n) (nd t (n + 1)),
    HasDerivWithinAt (y i) (f n i τ) (Icc (nd t n) (nd t (n + 1))) τ
  model : ∀ n < t.length - 1, ∀ τ ∈ Icc (nd t n) (nd t (n + 1)), ∀ e : Env ℝ,
    PointVals d xdot (fun i => f n i τ) (fun i => y i τ) (fun k => ζ n k τ) (fun i => u i n) p τ (tdpAt tdp_fun τ).e e → ResidualZero res e

section
variable (fresh freshI : String → ℕ) (casadiPoints : ℕ → String → Except PyErr (List ℝ))
    (csFunction : List (MXExpr ℝ) → List (MXExpr ℝ) → Except PyErr (CsFn ℝ))
    (dae : DaeObj ℝ) (t : List ℝ) (order : ℕ) (method : String) (tdp_fun : Option (ℝ → Mat ℝ))
    (d : DaeObj ℝ) (xdot res : MXExpr ℝ) (tau : List ℝ) (F : CsFn ℝ) (rep : Bool) (s : Scheme ℝ)

/-- The values that belong to a collocation point. -/
theorem AtPoint.vals {fresh freshI : String → ℕ} {casadiPoints : ℕ → String → Except PyErr (List ℝ)}
    {csFunction : List (MXExpr ℝ) → List (MXExpr ℝ) → Except PyErr (CsFn ℝ)}
    {dae : DaeObj ℝ} {t : List ℝ} {order : ℕ} {method : String} {tdp_fun : Option (ℝ → Mat ℝ)}
    {d : DaeObj ℝ} {xdot res : MXExpr ℝ} {tau : List ℝ} {F : CsFn ℝ} {rep : Bool} {s : Scheme ℝ}
    (pre : SchemePre freshI casadiPoints csFunction dae t order method tdp_fun d xdot res tau F)
    (b : s.Core fresh t order tdp_fun rep d F) {env e : Env ℝ} {c : ℕ} (a : AtPoint s d xdot tdp_fun rep env e c) :
    PointVals d xdot (fun i => env (fresh "K") i c) (fun i => s.X.val env i c) (fun i => env (fresh "Z") i c)
      (fun i => env (fresh "u") i (c / order)) (fun i => env (fresh "P") i (if rep then c else 0)) (nd s.tc c)
      (tdpAt tdp_fun (nd s.tc c)).e e := by
  refine ⟨fun i hi => ?_, a.x, fun i hi => ?_, fun i hi => ?_, fun i hi => ?_, a.t, fun i hi j hj => ?_⟩
  · rw [a.xdot i hi, b.Kd]; rfl
  · rw [a.z i hi, b.Z]; rfl
  · rw [a.u i hi, b.u, b.M_eq]; rfl
  · rw [a.p i hi, b.p]; rfl
  · cases htd : tdp_fun with
    | none =>
      have := pre.tdpFun
      rw [htd] at this
      simp only at this
      rw [this.1] at hi
      exact absurd hi (Nat.not_lt_zero _)
    | some g => exact a.tdp g htd i hi j hj

/-- Every state derivative, state and algebraic state can be had at a collocation point, with the inputs and parameters of `env`. -/
theorem exists_pointVals (hcs : IsCsFunction csFunction)
    (pre : SchemePre freshI casadiPoints csFunction dae t order method tdp_fun d xdot res tau F)
    (b : s.Built fresh t order tdp_fun rep d xdot res tau F)
    (hf : [fresh "x", fresh "K", fresh "Z", fresh "u", fresh "P"].Nodup) (env : Env ℝ) {n j : ℕ} (hn : n < t.length - 1)
    (hj : j < order) (v ξ w : ℕ → ℝ) :
    ∃ e, PointVals d xdot v ξ w (fun i => env (fresh "u") i n) (fun i => env (fresh "P") i (if rep then n * order + j else 0))
      (nd s.tc (n * order + j)) (tdpAt tdp_fun (nd s.tc (n * order + j))).e e := by
  have hc : n * order + j < (t.length - 1) * order := block_lt hn hj
  simp only [List.nodup_cons, List.mem_cons, List.not_mem_nil, or_false, not_or, not_false_eq_true, List.nodup_nil, and_true] at hf
  obtain ⟨⟨f1, f2, f3, f4⟩, ⟨f5, f6, f7⟩, ⟨f8, f9⟩, f10⟩ := hf
  let env2 : Env ℝ := fun id i c => if id = fresh "x" then ξ i - (nd t (n + 1) - nd t n) * (v i * wA tau j j) else
    if id = fresh "K" then (if c = n * order + j then v i else 0) else if id = fresh "Z" then w i else env id i c
  obtain ⟨e, a⟩ := exists_atPoint hcs pre b.toCore env2 hc
  have hX : ∀ i, s.X.val env2 i (n * order + j) = ξ i := by
    intro i
    rw [b.X env2 i n j hn hj]
    have : ∑ k ∈ Finset.range order, env2 (fresh "K") i (n * order + k) * wA tau j k = v i * wA tau j j := by
      rw [Finset.sum_eq_single_of_mem j (Finset.mem_range.mpr hj)]
      · simp [env2, Ne.symm f1]
      · intro k _ hk
        simp [env2, Ne.symm f1, hk]
    rw [this]
    simp [env2]
  have h := a.vals pre b.toCore
  refine ⟨e, fun i hi => ?_, fun i hi => ?_, fun i hi => ?_, fun i hi => ?_, fun i hi => ?_, h.t, h.tdp⟩
  · rw [h.xdot i hi]; simp [env2, Ne.symm f1]
  · rw [h.x i hi, hX]
  · rw [h.z i hi]; simp [env2, Ne.symm f2, Ne.symm f5]
  · rw [h.u i hi, div_block hj]; simp [env2, Ne.symm f3, Ne.symm f6, Ne.symm f8]
  · rw [h.p i hi]; simp [env2, Ne.symm f4, Ne.symm f7, Ne.symm f9]

/-- The collocation equations of a point say that the residual vanishes there. -/
theorem residual_iff (hcs : IsCsFunction csFunction)
    (pre : SchemePre freshI casadiPoints csFunction dae t order method tdp_fun d xdot res tau F)
    (b : s.Built fresh t order tdp_fun rep d xdot res tau F) {env e : Env ℝ} {c : ℕ} (hc : c < (t.length - 1) * order)
    (a : AtPoint s d xdot tdp_fun rep env e c) :
    (∀ i < res.rows, s.eqCollocation.val env i c = 0) ↔ ResidualZero res e := by
  constructor
  · intro h i hi j hj
    rw [pre.wf.res_cols] at hj
    obtain rfl : j = 0 := by omega
    rw [← (a.out hcs pre b.toCore hc).1 i hi]
    exact h i hi
  · intro h i hi
    rw [(a.out hcs pre b.toCore hc).1 i hi]
    exact h i hi 0 (by rw [pre.wf.res_cols]; exact Nat.one_pos)

variable {d xdot res} in
/-- Lipschitz continuity for given values. -/
theorem IndexOne.points {L Lz : ℝ} (ix : IndexOne d xdot res L Lz) {v ξ w v' ξ' w' u p : ℕ → ℝ} {τ : ℝ} {q : ℕ → ℕ → ℝ} {e e' : Env ℝ}
    (h : PointVals d xdot v ξ w u p τ q e) (h' : PointVals d xdot v' ξ' w' u p τ q e') (r : ResidualZero res e) (r' : ResidualZero res e')
    {δ : ℝ} (hδ0 : 0 ≤ δ) (hδ : ∀ i < d.x.rows, |ξ i - ξ' i| ≤ δ) :
    (∀ i < d.x.rows, |v i - v' i| ≤ L * δ) ∧ ∀ k < d.z.rows, |w k - w' k| ≤ Lz * δ := by
  obtain ⟨h1, h2⟩ := ix.lipschitz e e' r r' (fun i hi => by rw [h.u i hi, h'.u i hi]) (fun i hi => by rw [h.p i hi, h'.p i hi])
    (by rw [h.t, h'.t]) (fun i hi j hj => by rw [h.tdp i hi j hj, h'.tdp i hi j hj]) δ hδ0
    (fun i hi => by rw [h.x i hi, h'.x i hi]; exact hδ i hi)
  refine ⟨fun i hi => ?_, fun k hk => ?_⟩
  · have := h1 i hi
    rwa [h.xdot i hi, h'.xdot i hi] at this
  · have := h2 k hk
    rwa [h.z k hk, h'.z k hk] at this

/-- **C88** (uniqueness) For a model of index one and steps that are small enough, two solutions of the collocation equations with the same
initial state, inputs and parameters agree in the states, the state derivatives and the algebraic states. -/
theorem C88_unique (hcs : IsCsFunction csFunction)
    (pre : SchemePre freshI casadiPoints csFunction dae t order method tdp_fun d xdot res tau F)
    (hs : Scheme.new fresh freshI casadiPoints csFunction dae t order method tdp_fun rep = .ok s)
    (L Lz θ : ℝ) (ix : IndexOne d xdot res L Lz)
    (hθ : θ < 1) (T : ButcherTableau ℝ) (hT : butcherTableuForCollocationPoints tau = .ok T)
    (hstep : ∀ n < s.N, ∀ j < s.M, L * (|nd t (n + 1) - nd t n| * ∑ k ∈ Finset.range s.M, |T.A.e [j, k]|) ≤ θ)
    (env₁ env₂ : Env ℝ) (h₁ : ∀ v ∈ s.eq.vals env₁, v = 0) (h₂ : ∀ v ∈ s.eq.vals env₂, v = 0)
    (hx : ∀ i < d.nx, s.x.val env₁ i 0 = s.x.val env₂ i 0) (hu : ∀ n < s.N, ∀ i < d.nu, s.u.val env₁ i n = s.u.val env₂ i n)
    (hp : ∀ i < d.np, s.p.val env₁ i 0 = s.p.val env₂ i 0) :
    (∀ n ≤ s.N, ∀ i < d.nx, s.x.val env₁ i n = s.x.val env₂ i n) ∧
    (∀ c < s.N * s.M, (∀ i < d.nx, s.Kd.val env₁ i c = s.Kd.val env₂ i c ∧ s.X.val env₁ i c = s.X.val env₂ i c) ∧
      ∀ k < d.nz, s.Z.val env₁ k c = s.Z.val env₂ k c) := by
  have b := pre.built hs
  have hpos := pre.pos
  have hA : ∀ i j, T.A.e [i, j] = wA tau i j := by
    intro i j
    rw [butcher_ok] at hT; cases hT
    rfl
  have hnp : d.np = d.p.rows := by simp [DaeObj.np, MXExpr.numel, pre.p]
  rw [b.N_eq, b.M_eq] at hstep ⊢
  rw [b.N_eq] at hu
  rw [pre.wf.nx] at hx ⊢
  rw [pre.wf.nz]
  rw [pre.wf.nu] at hu
  rw [hnp] at hp
  simp only [b.x, b.Kd, b.Z, b.u, b.p, MXExpr.sym] at hx hu hp ⊢
  obtain ⟨r₁, c₁, p₁⟩ := (Scheme.eq_zero_iff pre b env₁).mp h₁
  obtain ⟨r₂, c₂, p₂⟩ := (Scheme.eq_zero_iff pre b env₂).mp h₂
  rw [hnp] at p₁ p₂
  rw [pre.wf.nx] at c₁ c₂
  simp only [b.p, MXExpr.sym] at p₁ p₂
  -- one point
  have point : ∀ n j, n < t.length - 1 → j < order → ∀ δ, 0 ≤ δ →
      (∀ i < d.x.rows, |s.X.val env₁ i (n * order + j) - s.X.val env₂ i (n * order + j)| ≤ δ) →
      (∀ i < d.x.rows, |env₁ (fresh "K") i (n * order + j) - env₂ (fresh "K") i (n * order + j)| ≤ L * δ) ∧
      ∀ k < d.z.rows, |env₁ (fresh "Z") k (n * order + j) - env₂ (fresh "Z") k (n * order + j)| ≤ Lz * δ := by
    intro n j hn hj δ hδ0 hδ
    have hc := block_lt hn hj
    obtain ⟨e₁, a₁⟩ := exists_atPoint hcs pre b.toCore env₁ hc
    obtain ⟨e₂, a₂⟩ := exists_atPoint hcs pre b.toCore env₂ hc
    have v₁ := a₁.vals pre b.toCore
    have v₂ := a₂.vals pre b.toCore
    rw [div_block hj] at v₁ v₂
    refine ix.points v₁ (v' := fun i => env₂ (fresh "K") i (n * order + j)) (ξ' := fun i => s.X.val env₂ i (n * order + j))
      (w' := fun i => env₂ (fresh "Z") i (n * order + j)) ⟨v₂.xdot, v₂.x, v₂.z, fun i hi => ?_, fun i hi => ?_, v₂.t, v₂.tdp⟩
      ((residual_iff fresh freshI casadiPoints csFunction dae t order method tdp_fun d xdot res tau F rep s hcs pre b hc a₁).mp (r₁ _ hc))
      ((residual_iff fresh freshI casadiPoints csFunction dae t order method tdp_fun d xdot res tau F rep s hcs pre b hc a₂).mp (r₂ _ hc))
      hδ0 hδ
    · rw [v₂.u i hi, hu n hn i hi]
    · rw [v₂.p i hi]
      cases hr : rep
      · exact (hp i hi).symm
      · show env₂ (fresh "P") i (n * order + j) = env₁ (fresh "P") i (n * order + j)
        rw [p₁ hr _ hc i hi, p₂ hr _ hc i hi, hp i hi]
  have hkeq : ∀ n < t.length - 1, (∀ i < d.x.rows, env₁ (fresh "x") i n = env₂ (fresh "x") i n) →
      ∀ j < order, ∀ i < d.x.rows, env₁ (fresh "K") i (n * order + j) = env₂ (fresh "K") i (n * order + j) := by
    intro n hn hxn j hj i hi
    -- the largest difference
    obtain ⟨⟨i0, j0⟩, m1, m2⟩ := Finset.exists_max_image (Finset.range d.x.rows ×ˢ Finset.range order)
      (fun q => |env₁ (fresh "K") q.1 (n * order + q.2) - env₂ (fresh "K") q.1 (n * order + q.2)|) ⟨(i, j), by simp [hi, hj]⟩
    obtain ⟨hi0, hj0⟩ : i0 < d.x.rows ∧ j0 < order := by simpa using m1
    set m := |env₁ (fresh "K") i0 (n * order + j0) - env₂ (fresh "K") i0 (n * order + j0)| with hm
    have hmax : ∀ l < order, ∀ i < d.x.rows, |env₁ (fresh "K") i (n * order + l) - env₂ (fresh "K") i (n * order + l)| ≤ m :=
      fun l hl i hi => m2 (i, l) (by simp [hi, hl])
    have hm0 : 0 ≤ m := abs_nonneg _
    have hX : ∀ i < d.x.rows, |s.X.val env₁ i (n * order + j0) - s.X.val env₂ i (n * order + j0)| ≤
        |nd t (n + 1) - nd t n| * (∑ l ∈ Finset.range order, |wA tau j0 l|) * m := by
      intro i hi
      rw [b.X env₁ i n j0 hn hj0, b.X env₂ i n j0 hn hj0, hxn i hi]
      exact stageState_sub (wA tau) order (nd t (n + 1) - nd t n) (fun i => env₂ (fresh "x") i n)
        (fun i l => env₁ (fresh "K") i (n * order + l)) (fun i l => env₂ (fresh "K") i (n * order + l)) j0 i m
        (fun l hl => hmax l hl i hi)
    have h1 := (point n j0 hn hj0 _ (mul_nonneg (mul_nonneg (abs_nonneg _) (Finset.sum_nonneg fun _ _ => abs_nonneg _)) hm0) hX).1 i0 hi0
    rw [← hm] at h1
    have h2 := hstep n hn j0 hj0
    simp only [hA] at h2
    have h3 : m ≤ θ * m := by
      refine h1.trans ?_
      rw [← mul_assoc]
      exact mul_le_mul_of_nonneg_right h2 hm0
    have h4 : m = 0 := by nlinarith
    have h5 := hmax j hj i hi
    rw [h4] at h5
    exact sub_eq_zero.mp (abs_nonpos_iff.mp h5)
  have hxn : ∀ n ≤ t.length - 1, ∀ i < d.x.rows, env₁ (fresh "x") i n = env₂ (fresh "x") i n := by
    intro n
    induction n with
    | zero => intro _; exact hx
    | succ n ih =>
      intro hn i hi
      have e₁ := c₁ n (by omega) i hi
      have e₂ := c₂ n (by omega) i hi
      rw [b.cont _ i n (by omega), sub_eq_zero] at e₁ e₂
      rw [← e₁, ← e₂, ih (by omega) i hi]
      refine congrArg₂ _ rfl (congrArg₂ _ rfl (Finset.sum_congr rfl fun l hl => ?_))
      rw [hkeq n (by omega) (ih (by omega)) l (Finset.mem_range.mp hl) i hi]
  refine ⟨hxn, fun c hc => ?_⟩
  obtain ⟨n, j, hn, hj, rfl⟩ : ∃ n j, n < t.length - 1 ∧ j < order ∧ c = n * order + j :=
    ⟨c / order, c % order, Nat.div_lt_of_lt_mul (by rwa [Nat.mul_comm]), Nat.mod_lt _ hpos, (Nat.div_add_mod' c order).symm⟩
  have hXeq : ∀ i < d.x.rows, s.X.val env₁ i (n * order + j) = s.X.val env₂ i (n * order + j) := by
    intro i hi
    rw [b.X env₁ i n j hn hj, b.X env₂ i n j hn hj, hxn n (by omega) i hi]
    refine congrArg₂ _ rfl (congrArg₂ _ rfl (Finset.sum_congr rfl fun l hl => ?_))
    rw [hkeq n hn (hxn n (by omega)) l (Finset.mem_range.mp hl) i hi]
  refine ⟨fun i hi => ⟨hkeq n hn (hxn n (by omega)) j hj i hi, hXeq i hi⟩, fun k hk => ?_⟩
  have := (point n j hn hj 0 le_rfl (fun i hi => by rw [hXeq i hi, sub_self, abs_zero])).2 k hk
  rw [mul_zero] at this
  exact sub_eq_zero.mp (abs_nonpos_iff.mp this)

/-- A solution of the collocation equations from solutions of the stage equations of the single intervals; `G`, `W` are the state derivative and
the algebraic state of the model. -/
theorem exists_of_stages (hcs : IsCsFunction csFunction)
    (pre : SchemePre freshI casadiPoints csFunction dae t order method tdp_fun d xdot res tau F)
    (b : s.Built fresh t order tdp_fun rep d xdot res tau F)
    (hf : [fresh "x", fresh "K", fresh "Z", fresh "u", fresh "P"].Nodup) (env : Env ℝ)
    (hrep : rep = true → ∀ c < (t.length - 1) * order, ∀ i < d.np, s.p.val env i c = s.p.val env i 0) (x0 : ℕ → ℝ)
    (G W : ℕ → (ℕ → ℝ) → ℕ → ℝ)
    (hGW : ∀ c ξ e, PointVals d xdot (G c ξ) ξ (W c ξ) (fun i => env (fresh "u") i (c / order))
      (fun i => env (fresh "P") i (if rep then c else 0)) (nd s.tc c) (tdpAt tdp_fun (nd s.tc c)).e e → ResidualZero res e)
    (hst : ∀ (n : ℕ) (ξ : ℕ → ℝ), ∃ k : ℕ → ℕ → ℝ, n < t.length - 1 → ∀ i < d.x.rows, ∀ j < order,
      k i j = G (n * order + j) (stageState (wA tau) order (nd t (n + 1) - nd t n) ξ k j) i) :
    ∃ env', (∀ v ∈ s.eq.vals env', v = 0) ∧ (∀ i, s.x.val env' i 0 = x0 i) ∧
      (∀ i n, s.u.val env' i n = s.u.val env i n) ∧ (∀ i c, s.p.val env' i c = s.p.val env i c) := by
  have hpos := pre.pos
  simp only [List.nodup_cons, List.mem_cons, List.not_mem_nil, or_false, not_or, not_false_eq_true, List.nodup_nil, and_true] at hf
  obtain ⟨⟨f1, f2, f3, f4⟩, ⟨f5, f6, f7⟩, ⟨f8, f9⟩, f10⟩ := hf
  choose k hk using hst
  let xs : ℕ → ℕ → ℝ := fun n => Nat.rec x0 (fun n ξ i => ξ i + (nd t (n + 1) - nd t n) * ∑ l ∈ Finset.range order, k n ξ i l * wb tau l) n
  have hxs : ∀ n i, xs (n + 1) i = xs n i + (nd t (n + 1) - nd t n) * ∑ l ∈ Finset.range order, k n (xs n) i l * wb tau l :=
    fun n i => rfl
  let st : ℕ → ℕ → ℕ → ℝ := fun n j => stageState (wA tau) order (nd t (n + 1) - nd t n) (xs n) (k n (xs n)) j
  let env' : Env ℝ := fun id i c => if id = fresh "x" then xs c i else
    if id = fresh "K" then G c (st (c / order) (c % order)) i else
    if id = fresh "Z" then W c (st (c / order) (c % order)) i else env id i c
  have ex : ∀ i n, env' (fresh "x") i n = xs n i := fun i n => if_pos rfl
  have ekG : ∀ i n j, j < order → env' (fresh "K") i (n * order + j) = G (n * order + j) (st n j) i := by
    intro i n j hj
    show (if fresh "K" = fresh "x" then _ else if fresh "K" = fresh "K" then _ else _) = _
    rw [if_neg (Ne.symm f1), if_pos rfl, div_block hj, mod_block hj]
  have ek : ∀ n j, n < t.length - 1 → j < order → ∀ i < d.x.rows, env' (fresh "K") i (n * order + j) = k n (xs n) i j := by
    intro n j hn hj i hi
    rw [ekG i n j hj, hk n (xs n) hn i hi j hj]
  have ez : ∀ i n j, j < order → env' (fresh "Z") i (n * order + j) = W (n * order + j) (st n j) i := by
    intro i n j hj
    show (if fresh "Z" = fresh "x" then _ else if fresh "Z" = fresh "K" then _ else if fresh "Z" = fresh "Z" then _ else _) = _
    rw [if_neg (Ne.symm f2), if_neg (Ne.symm f5), if_pos rfl, div_block hj, mod_block hj]
  have eu : ∀ i n, env' (fresh "u") i n = env (fresh "u") i n := by
    intro i n
    simp [env', Ne.symm f3, Ne.symm f6, Ne.symm f8]
  have ep : ∀ i n, env' (fresh "P") i n = env (fresh "P") i n := by
    intro i n
    simp [env', Ne.symm f4, Ne.symm f7, Ne.symm f9]
  have hu : ∀ i n, s.u.val env' i n = s.u.val env i n := by
    intro i n
    rw [b.u]
    exact eu i n
  have hp : ∀ i c, s.p.val env' i c = s.p.val env i c := by
    intro i c
    rw [b.p]
    exact ep i c
  refine ⟨env', (Scheme.eq_zero_iff pre b env').mpr ⟨?_, ?_, ?_⟩, ?_, hu, hp⟩
  · intro c hc
    obtain ⟨n, j, hn, hj, rfl⟩ : ∃ n j, n < t.length - 1 ∧ j < order ∧ c = n * order + j :=
      ⟨c / order, c % order, Nat.div_lt_of_lt_mul (by rwa [Nat.mul_comm]), Nat.mod_lt _ hpos, (Nat.div_add_mod' c order).symm⟩
    obtain ⟨e, a⟩ := exists_atPoint hcs pre b.toCore env' hc
    refine (residual_iff fresh freshI casadiPoints csFunction dae t order method tdp_fun d xdot res tau F rep s hcs pre b hc a).mpr ?_
    have v := a.vals pre b.toCore
    refine hGW (n * order + j) (st n j) e ⟨fun i hi => ?_, fun i hi => ?_, fun i hi => ?_, fun i hi => ?_, fun i hi => ?_, v.t, v.tdp⟩
    · rw [v.xdot i hi, ekG i n j hj]
    · rw [v.x i hi, b.X env' i n j hn hj, ex]
      refine congrArg₂ _ rfl (congrArg₂ _ rfl (Finset.sum_congr rfl fun l hl => ?_))
      rw [ek n l hn (Finset.mem_range.mp hl) i hi]
    · rw [v.z i hi, ez i n j hj]
    · rw [v.u i hi, eu]
    · rw [v.p i hi, ep]
  · intro n hn i hi
    rw [pre.wf.nx] at hi
    rw [b.cont env' i n hn, sub_eq_zero, ex i (n + 1), ex i n, hxs]
    refine congrArg₂ _ rfl (congrArg₂ _ rfl (Finset.sum_congr rfl fun l hl => ?_))
    rw [ek n l hn (Finset.mem_range.mp hl) i hi]
  · intro hr c hc i hi
    rw [hp, hp]
    exact hrep hr c hc i hi
  · intro i
    rw [b.x]
    exact ex i 0

/-- **C88** (existence) If moreover the model is solvable for the state derivative and the algebraic state, the collocation equations have
a solution with given initial state, inputs and parameter. -/
theorem C88_exists (hcs : IsCsFunction csFunction)
    (pre : SchemePre freshI casadiPoints csFunction dae t order method tdp_fun d xdot res tau F)
    (hs : Scheme.new fresh freshI casadiPoints csFunction dae t order method tdp_fun rep = .ok s)
    (hf : [fresh "x", fresh "K", fresh "Z", fresh "u", fresh "P"].Nodup) (L Lz θ : ℝ) (ix : IndexOne d xdot res L Lz)
    (hsol : Solvable d xdot res)
    (hθ : θ < 1) (T : ButcherTableau ℝ) (hT : butcherTableuForCollocationPoints tau = .ok T)
    (hstep : ∀ n < s.N, ∀ j < s.M, L * (|nd t (n + 1) - nd t n| * ∑ k ∈ Finset.range s.M, |T.A.e [j, k]|) ≤ θ)
    (env : Env ℝ) (hrep : rep = true → ∀ c < s.N * s.M, ∀ i < d.np, s.p.val env i c = s.p.val env i 0) (x0 : ℕ → ℝ) :
    ∃ env', (∀ v ∈ s.eq.vals env', v = 0) ∧ (∀ i, s.x.val env' i 0 = x0 i) ∧
      (∀ i n, s.u.val env' i n = s.u.val env i n) ∧ (∀ i c, s.p.val env' i c = s.p.val env i c) := by
  have b := pre.built hs
  have hA : ∀ i j, T.A.e [i, j] = wA tau i j := by
    intro i j
    rw [butcher_ok] at hT; cases hT
    rfl
  rw [b.N_eq, b.M_eq] at hstep hrep
  choose G W hGW using fun c (ξ : ℕ → ℝ) => hsol ξ (fun i => env (fresh "u") i (c / order))
    (fun i => env (fresh "P") i (if rep then c else 0)) (nd s.tc c) (tdpAt tdp_fun (nd s.tc c)).e
  have hG : ∀ n j, n < t.length - 1 → j < order → ∀ ξ ξ' : ℕ → ℝ, ∀ δ, (∀ i < d.x.rows, |ξ i - ξ' i| ≤ δ) →
      ∀ i < d.x.rows, |G (n * order + j) ξ i - G (n * order + j) ξ' i| ≤ L * δ := by
    intro n j hn hj ξ ξ' δ hδ i hi
    obtain ⟨e, he⟩ := exists_pointVals fresh freshI casadiPoints csFunction dae t order method tdp_fun d xdot res tau F rep s hcs pre b hf
      env hn hj (G (n * order + j) ξ) ξ (W (n * order + j) ξ)
    obtain ⟨e', he'⟩ := exists_pointVals fresh freshI casadiPoints csFunction dae t order method tdp_fun d xdot res tau F rep s hcs pre b hf
      env hn hj (G (n * order + j) ξ') ξ' (W (n * order + j) ξ')
    exact (ix.points he he' (hGW _ ξ e (by rw [div_block hj]; exact he)) (hGW _ ξ' e' (by rw [div_block hj]; exact he'))
      ((abs_nonneg _).trans (hδ i hi)) hδ).1 i hi
  have hst : ∀ (n : ℕ) (ξ : ℕ → ℝ), ∃ k : ℕ → ℕ → ℝ, n < t.length - 1 → ∀ i < d.x.rows, ∀ j < order,
      k i j = G (n * order + j) (stageState (wA tau) order (nd t (n + 1) - nd t n) ξ k j) i := by
    intro n ξ
    by_cases hn : n < t.length - 1
    · obtain ⟨k, hk⟩ := (stage_unique_solution d.x.rows order (wA tau) (nd t (n + 1) - nd t n) L θ ix.nonneg hθ
        (fun j hj => by simpa only [hA] using hstep n hn j hj) (fun j => G (n * order + j))
        (fun j hj => hG n j hn hj) ξ).1
      exact ⟨k, fun _ => hk⟩
    · exact ⟨fun _ _ => 0, fun h => absurd h hn⟩
  exact exists_of_stages fresh freshI casadiPoints csFunction dae t order method tdp_fun d xdot res tau F rep s hcs pre b hf env hrep x0 G W
    hGW hst

/-- The errors of the state derivative and the algebraic state at a collocation point are at most `L` and `Lz` times the error of the
state. -/
theorem point_error (hcs : IsCsFunction csFunction)
    (pre : SchemePre freshI casadiPoints csFunction dae t order method tdp_fun d xdot res tau F)
    (b : s.Built fresh t order tdp_fun rep d xdot res tau F)
    (hf : [fresh "x", fresh "K", fresh "Z", fresh "u", fresh "P"].Nodup) (L Lz : ℝ) (ix : IndexOne d xdot res L Lz)
    (h01 : ∀ k < tau.length, nd tau k ∈ Icc (0 : ℝ) 1) (ht : ∀ n < t.length - 1, nd t n ≤ nd t (n + 1)) (env : Env ℝ)
    (heq : ∀ v ∈ s.eq.vals env, v = 0) (y : ℕ → ℝ → ℝ) (f ζ : ℕ → ℕ → ℝ → ℝ)
    (ex : ExactDae d xdot res tdp_fun t (s.u.val env) (fun i => s.p.val env i 0) y f ζ)
    (n j : ℕ) (hn : n < t.length - 1) (hj : j < order) (δ : ℝ) (hδ0 : 0 ≤ δ)
    (hδ : ∀ i < d.nx, |s.X.val env i (n * order + j) - y i (nd s.tc (n * order + j))| ≤ δ) :
    (∀ i < d.nx, |env (fresh "K") i (n * order + j) - f n i (nd s.tc (n * order + j))| ≤ L * δ) ∧
    ∀ k < d.nz, |env (fresh "Z") k (n * order + j) - ζ n k (nd s.tc (n * order + j))| ≤ Lz * δ := by
  have hc : n * order + j < (t.length - 1) * order := block_lt hn hj
  have hnp : d.np = d.p.rows := by simp [DaeObj.np, MXExpr.numel, pre.p]
  have hmem : nd s.tc (n * order + j) ∈ Icc (nd t n) (nd t (n + 1)) := by
    rw [b.tc n j hn hj]
    have h1 := h01 j (by rw [pre.len]; exact hj)
    have h2 := sub_nonneg.mpr (ht n hn)
    constructor
    · nlinarith [h1.1]
    · have : (nd t (n + 1) - nd t n) * nd tau j ≤ nd t (n + 1) - nd t n := by nlinarith [h1.2]
      linarith
  set τ := nd s.tc (n * order + j) with hτ
  obtain ⟨e1, a1⟩ := exists_atPoint hcs pre b.toCore env hc
  have v1 := a1.vals pre b.toCore
  rw [div_block hj, ← hτ] at v1
  obtain ⟨e2, v2⟩ := exists_pointVals fresh freshI casadiPoints csFunction dae t order method tdp_fun d xdot res tau F rep s hcs pre b hf
    env hn hj (fun i => f n i τ) (fun i => y i τ) (fun k => ζ n k τ)
  rw [← hτ] at v2
  obtain ⟨hcol, -, hpar⟩ := (Scheme.eq_zero_iff pre b env).mp heq
  have r1 := (residual_iff fresh freshI casadiPoints csFunction dae t order method tdp_fun d xdot res tau F rep s hcs pre b hc a1).mp
    (hcol _ hc)
  have r2 : ResidualZero res e2 := by
    refine ex.model n hn τ hmem e2 ⟨v2.xdot, v2.x, v2.z, fun i hi => ?_, fun i hi => ?_, v2.t, v2.tdp⟩
    · rw [v2.u i hi, b.u]; rfl
    · rw [v2.p i hi]
      cases hr : rep
      · rw [b.p]; rfl
      · have := hpar hr _ hc i (by rw [hnp]; exact hi)
        rw [b.p] at this ⊢
        exact this
  rw [pre.wf.nx] at hδ ⊢
  rw [pre.wf.nz]
  exact ix.points v1 v2 r1 r2 hδ0 hδ

/-- **C88** (convergence) For a model of index one, nodes in [0,1] and steps that are not longer than `H`, the distances of the states and
the algebraic states of every solution of the collocation equations from the exact ones, with the same inputs and parameter, are bounded by
an explicit constant times `H` to the number of nodes, plus the propagated error of the initial state. -/
theorem C88_convergence (hcs : IsCsFunction csFunction)
    (pre : SchemePre freshI casadiPoints csFunction dae t order method tdp_fun d xdot res tau F)
    (hs : Scheme.new fresh freshI casadiPoints csFunction dae t order method tdp_fun rep = .ok s)
    (hf : [fresh "x", fresh "K", fresh "Z", fresh "u", fresh "P"].Nodup) (L Lz θ : ℝ) (ix : IndexOne d xdot res L Lz)
    (hd : tau.Nodup) (h01 : ∀ k < tau.length, nd tau k ∈ Icc (0 : ℝ) 1)
    (T : ButcherTableau ℝ) (hT : butcherTableuForCollocationPoints tau = .ok T) (α β H : ℝ)
    (hα : ∀ j < s.M, ∑ k ∈ Finset.range s.M, |T.A.e [j, k]| ≤ α) (hβ : ∑ k ∈ Finset.range s.M, |T.b.e [k]| ≤ β)
    (ht : ∀ n < s.N, nd t n ≤ nd t (n + 1) ∧ nd t (n + 1) - nd t n ≤ H) (hθ : θ < 1) (hstep : L * (H * α) ≤ θ)
    (env : Env ℝ) (heq : ∀ v ∈ s.eq.vals env, v = 0)
    (y : ℕ → ℝ → ℝ) (f ζ : ℕ → ℕ → ℝ → ℝ)
    (ex : ExactDae d xdot res tdp_fun t (s.u.val env) (fun i => s.p.val env i 0) y f ζ) (B ε : ℝ)
    (hsm : ∀ n < s.N, ∀ i < d.nx, ContDiffOn ℝ s.M (f n i) (Icc (nd t n) (nd t (n + 1))))
    (hB : ∀ n < s.N, ∀ i < d.nx, ∀ τ ∈ Icc (nd t n) (nd t (n + 1)),
      |iteratedDerivWithin s.M (f n i) (Icc (nd t n) (nd t (n + 1))) τ| ≤ B) (hB0 : 0 ≤ B)
    (hε : 0 ≤ ε) (h0 : ∀ i < d.nx, |s.x.val env i 0 - y i (nd t 0)| ≤ ε) :
    let Λ := β * L / (1 - θ)
    let D := B * H ^ s.M / ((s.M - 1).factorial : ℝ)
    let bound := fun n => Real.exp (Λ * (nd t n - nd t 0)) * (ε + (nd t n - nd t 0) * ((1 + β + Λ * H * (1 + α)) * D))
    (∀ n ≤ s.N, ∀ i < d.nx, |s.x.val env i n - y i (nd t n)| ≤ bound n) ∧
    ∀ n < s.N, ∀ j < s.M,
      (∀ i < d.nx, |s.X.val env i (n * s.M + j) - y i (nd s.tc (n * s.M + j))| ≤ (bound n + H * (1 + α) * D) / (1 - θ)) ∧
      (∀ i < d.nx, |s.Kd.val env i (n * s.M + j) - f n i (nd s.tc (n * s.M + j))| ≤ L * ((bound n + H * (1 + α) * D) / (1 - θ))) ∧
      ∀ k < d.nz, |s.Z.val env k (n * s.M + j) - ζ n k (nd s.tc (n * s.M + j))| ≤ Lz * ((bound n + H * (1 + α) * D) / (1 - θ)) := by
  have b := pre.built hs
  have hpt := point_error fresh freshI casadiPoints csFunction dae t order method tdp_fun d xdot res tau F rep s hcs pre b hf L Lz ix h01
    (fun n hn => (ht n (by rw [b.N_eq]; exact hn)).1) env heq y f ζ ex
  obtain ⟨e1, e2⟩ := scheme_error fresh freshI casadiPoints csFunction dae t order method tdp_fun d xdot res tau F rep s pre b L θ ix.nonneg
    hd h01 T hT α β H hα hβ ht hθ hstep env heq y f ex.deriv (fun n j hn hj δ hδ i hi => by
      have := (hpt n j hn hj δ ((abs_nonneg _).trans (hδ i hi)) (by rw [b.tc n j hn hj]; exact hδ)).1 i hi
      rwa [b.tc n j hn hj] at this) B ε hsm hB hB0 hε h0
  intro Λ D bound
  refine ⟨e1, fun n hn j hj => ?_⟩
  have hE := fun i hi => e2 n hn j hj i hi
  have h1θ : 0 < 1 - θ := by linarith
  have hβ0 : 0 ≤ β := (Finset.sum_nonneg fun _ _ => abs_nonneg _).trans hβ
  have hα0 : 0 ≤ α := (Finset.sum_nonneg fun _ _ => abs_nonneg _).trans (hα 0 (by rw [b.M_eq]; exact pre.pos))
  have hH0 : 0 ≤ H := by
    have := ht n hn
    linarith [this.1, this.2]
  have hL := ix.nonneg
  have ht0 : ∀ m ≤ n, 0 ≤ nd t m - nd t 0 := by
    intro m
    induction m with
    | zero => intro _; rw [sub_self]
    | succ m ih =>
      intro hm
      have := ih (by omega)
      have := (ht m (by omega)).1
      linarith
  have ht0 := ht0 n le_rfl
  have hE0 : 0 ≤ (bound n + H * (1 + α) * D) / (1 - θ) := by
    have : 0 ≤ Λ := div_nonneg (mul_nonneg hβ0 hL) h1θ.le
    have : 0 ≤ D := by positivity
    positivity
  have hM := b.M_eq
  have := hpt n j (by rw [← b.N_eq]; exact hn) (by rw [← hM]; exact hj) _ hE0 (by
    intro i hi
    have := hE i hi
    rw [hM] at this
    simp only [Λ, D, bound, hM]
    exact this)
  rw [← hM] at this
  refine ⟨hE, fun i hi => ?_, fun k hk => ?_⟩
  · rw [b.Kd]
    exact this.1 i hi
  · rw [b.Z]
    exact this.2 k hk

end
end CE
