import Verif.Num.LemColumns
import Mathlib.Topology.MetricSpace.Contracting

/-!
# Property C78: the collocation equations have exactly one solution for small steps
-/

namespace CE

/-- The states at the points of one interval. -/
def stageState (A : ℕ → ℕ → ℝ) (M : ℕ) (h : ℝ) (x0 : ℕ → ℝ) (k : ℕ → ℕ → ℝ) (j i : ℕ) : ℝ :=
  x0 i + h * ∑ l ∈ Finset.range M, k i l * A j l

theorem stageState_sub (A : ℕ → ℕ → ℝ) (M : ℕ) (h : ℝ) (x0 : ℕ → ℝ) (k k' : ℕ → ℕ → ℝ) (j i : ℕ) (δ : ℝ)
    (hk : ∀ l < M, |k i l - k' i l| ≤ δ) :
    |stageState A M h x0 k j i - stageState A M h x0 k' j i| ≤ |h| * (∑ l ∈ Finset.range M, |A j l|) * δ := by
  have : stageState A M h x0 k j i - stageState A M h x0 k' j i = h * ∑ l ∈ Finset.range M, (k i l - k' i l) * A j l := by
    simp only [stageState, sub_mul, Finset.sum_sub_distrib]; ring
  rw [this, abs_mul, mul_assoc]
  refine mul_le_mul_of_nonneg_left ?_ (abs_nonneg h)
  refine (Finset.abs_sum_le_sum_abs _ _).trans ?_
  rw [Finset.sum_mul]
  refine Finset.sum_le_sum fun l hl => ?_
  rw [abs_mul, mul_comm]
  exact mul_le_mul_of_nonneg_left (hk l (Finset.mem_range.mp hl)) (abs_nonneg _)

/-- One interval: the stage equations have exactly one solution. -/
theorem stage_unique_solution (nx M : ℕ) (A : ℕ → ℕ → ℝ) (h L θ : ℝ) (hL : 0 ≤ L) (hθ : θ < 1)
    (hA : ∀ j < M, L * (|h| * ∑ l ∈ Finset.range M, |A j l|) ≤ θ) (g : ℕ → (ℕ → ℝ) → ℕ → ℝ)
    (hg : ∀ j < M, ∀ ξ ξ' : ℕ → ℝ, ∀ δ, (∀ i < nx, |ξ i - ξ' i| ≤ δ) → ∀ i < nx, |g j ξ i - g j ξ' i| ≤ L * δ) (x0 : ℕ → ℝ) :
    (∃ k : ℕ → ℕ → ℝ, ∀ i < nx, ∀ j < M, k i j = g j (stageState A M h x0 k j) i) ∧
    ∀ k k' : ℕ → ℕ → ℝ, (∀ i < nx, ∀ j < M, k i j = g j (stageState A M h x0 k j) i) →
      (∀ i < nx, ∀ j < M, k' i j = g j (stageState A M h x0 k' j) i) → ∀ i < nx, ∀ j < M, k i j = k' i j := by
  let ext : (Fin nx → Fin M → ℝ) → ℕ → ℕ → ℝ := fun k i j => if h : i < nx ∧ j < M then k ⟨i, h.1⟩ ⟨j, h.2⟩ else 0
  let Φ : (Fin nx → Fin M → ℝ) → Fin nx → Fin M → ℝ := fun k i j => g j (stageState A M h x0 (ext k) j) i
  have hext : ∀ k (i : Fin nx) (j : Fin M), ext k i j = k i j := fun k i j => dif_pos ⟨i.2, j.2⟩
  by_cases hM : M = 0
  · subst hM
    exact ⟨⟨fun _ _ => 0, fun i _ j hj => absurd hj (Nat.not_lt_zero _)⟩, fun _ _ _ _ i _ j hj => absurd hj (Nat.not_lt_zero _)⟩
  have hθ0 : 0 ≤ θ := le_trans (mul_nonneg hL (mul_nonneg (abs_nonneg _) (Finset.sum_nonneg fun _ _ => abs_nonneg _)))
    (hA 0 (Nat.pos_of_ne_zero hM))
  have hlip : LipschitzWith ⟨θ, hθ0⟩ Φ := by
    refine LipschitzWith.of_dist_le_mul fun k k' => ?_
    have hd0 : 0 ≤ dist k k' := dist_nonneg
    refine (dist_pi_le_iff (mul_nonneg hθ0 hd0)).mpr fun i => (dist_pi_le_iff (mul_nonneg hθ0 hd0)).mpr fun j => ?_
    rw [Real.dist_eq]
    have h1 := hg j j.2 (stageState A M h x0 (ext k) j) (stageState A M h x0 (ext k') j) _ (fun i hi =>
      stageState_sub A M h x0 (ext k) (ext k') j i (dist k k') fun l hl => by
        have e1 := hext k ⟨i, hi⟩ ⟨l, hl⟩
        have e2 := hext k' ⟨i, hi⟩ ⟨l, hl⟩
        simp only at e1 e2
        rw [e1, e2, ← Real.dist_eq]
        exact (dist_le_pi_dist (k ⟨i, hi⟩) (k' ⟨i, hi⟩) ⟨l, hl⟩).trans (dist_le_pi_dist k k' ⟨i, hi⟩)) i i.2
    refine h1.trans ?_
    rw [← mul_assoc]
    exact mul_le_mul_of_nonneg_right (hA j j.2) hd0
  have hcon : ContractingWith ⟨θ, hθ0⟩ Φ := ⟨by exact_mod_cast hθ, hlip⟩
  constructor
  · refine ⟨ext (ContractingWith.fixedPoint Φ hcon), fun i hi j hj => ?_⟩
    have := congrFun (congrFun hcon.fixedPoint_isFixedPt ⟨i, hi⟩) ⟨j, hj⟩
    have e1 := hext (ContractingWith.fixedPoint Φ hcon) ⟨i, hi⟩ ⟨j, hj⟩
    simp only at e1
    rw [e1]
    exact this.symm
  · intro k k' hk hk'
    have hfix : ∀ k : ℕ → ℕ → ℝ, (∀ i < nx, ∀ j < M, k i j = g j (stageState A M h x0 k j) i) →
        Function.IsFixedPt Φ (fun i j => k i j) := by
      intro k hk
      funext i j
      show g j (stageState A M h x0 (ext fun i j => k i j) j) i = k i j
      rw [hk i i.2 j j.2]
      have := hg j j.2 (stageState A M h x0 (ext fun i j => k i j) j) (stageState A M h x0 k j) 0 (fun i hi => by
        have h1 := stageState_sub A M h x0 (ext fun i j => k i j) k j i 0 (fun l hl => by
          have e1 := hext (fun i j => k i j) ⟨i, hi⟩ ⟨l, hl⟩
          simp only at e1
          rw [e1, sub_self, abs_zero])
        rwa [mul_zero] at h1) i i.2
      rw [mul_zero] at this
      exact sub_eq_zero.mp (abs_nonpos_iff.mp this)
    intro i hi j hj
    exact congrFun (congrFun (hcon.fixedPoint_unique' (hfix k hk) (hfix k' hk')) ⟨i, hi⟩) ⟨j, hj⟩

/-- The model is an ordinary differential equation `xdot = ode` whose right-hand side is Lipschitz continuous in the state with
constant `L` (maximum norm), for all values of the other symbols. -/
structure LipschitzOde (d : DaeObj ℝ) (xdot res ode : MXExpr ℝ) (L : ℝ) : Prop where
  nz : d.nz = 0
  explicit : ∀ e, ResidualZero res e ↔ ∀ i < d.nx, xdot.val e i 0 = ode.val e i 0
  nonneg : 0 ≤ L
  lipschitz : ∀ e e' : Env ℝ, (∀ i < d.nu, d.u.val e i 0 = d.u.val e' i 0) → (∀ i < d.np, d.p.val e i 0 = d.p.val e' i 0) →
    d.t.val e 0 0 = d.t.val e' 0 0 → (∀ i < d.tdp.rows, ∀ j < d.tdp.cols, d.tdp.val e i j = d.tdp.val e' i j) →
    ∀ δ, (∀ i < d.nx, |d.x.val e i 0 - d.x.val e' i 0| ≤ δ) → ∀ i < d.nx, |ode.val e i 0 - ode.val e' i 0| ≤ L * δ

section
variable (fresh freshI : String → ℕ) (casadiPoints : ℕ → String → Except PyErr (List ℝ))
    (csFunction : List (MXExpr ℝ) → List (MXExpr ℝ) → Except PyErr (CsFn ℝ))
    (dae : DaeObj ℝ) (t : List ℝ) (order : ℕ) (method : String) (tdp_fun : Option (ℝ → Mat ℝ))
    (d : DaeObj ℝ) (xdot res : MXExpr ℝ) (tau : List ℝ) (F : CsFn ℝ) (rep : Bool) (s : Scheme ℝ)

/-- The right-hand side at the collocation points as a function of the state there. -/
theorem exists_rhs (hcs : IsCsFunction csFunction)
    (pre : SchemePre freshI casadiPoints csFunction dae t order method tdp_fun d xdot res tau F)
    (b : s.Built fresh t order tdp_fun rep d xdot res tau F) (ode : MXExpr ℝ) (L : ℝ) (lip : LipschitzOde d xdot res ode L)
    (hf : [fresh "x", fresh "K", fresh "u", fresh "P"].Nodup) (env : Env ℝ) :
    ∃ G : ℕ → (ℕ → ℝ) → ℕ → ℝ,
      (∀ c < (t.length - 1) * order, ∀ ξ ξ' : ℕ → ℝ, ∀ δ, (∀ i < d.nx, |ξ i - ξ' i| ≤ δ) → ∀ i < d.nx, |G c ξ i - G c ξ' i| ≤ L * δ) ∧
      ∀ env' : Env ℝ, (∀ n < t.length - 1, ∀ i < d.nu, s.u.val env' i n = s.u.val env i n) →
        (∀ c < (if rep then (t.length - 1) * order else 1), ∀ i < d.np, s.p.val env' i c = s.p.val env i c) →
        ((∀ v ∈ s.eq.vals env', v = 0) ↔
          (∀ c < (t.length - 1) * order, ∀ i < d.nx, env' (fresh "K") i c = G c (fun i => s.X.val env' i c) i) ∧
          (∀ n < t.length - 1, ∀ i < d.nx, env' (fresh "x") i (n + 1) = env' (fresh "x") i n +
            (nd t (n + 1) - nd t n) * ∑ k ∈ Finset.range order, env' (fresh "K") i (n * order + k) * wb tau k) ∧
          (rep = true → ∀ c < (t.length - 1) * order, ∀ i < d.np, s.p.val env i c = s.p.val env i 0)) := by
  have hpos := pre.pos
  have hnp : d.np = d.p.rows := by simp [DaeObj.np, MXExpr.numel, pre.p]
  have hnz : d.z.rows = 0 := by rw [← pre.wf.nz]; exact lip.nz
  simp only [List.nodup_cons, List.mem_cons, List.not_mem_nil, or_false, not_or, not_false_eq_true, List.nodup_nil, and_true] at hf
  obtain ⟨⟨f1, f2, f3⟩, ⟨f4, f5⟩, f6⟩ := hf
  let envX : (ℕ → ℝ) → Env ℝ := fun ξ id i j => if id = fresh "x" then ξ i else if id = fresh "K" then 0 else env id i j
  have hex : ∀ (c : ℕ) (ξ : ℕ → ℝ), ∃ e, c < (t.length - 1) * order → AtPoint s d xdot tdp_fun rep (envX ξ) e c := by
    intro c ξ
    by_cases hc : c < (t.length - 1) * order
    · obtain ⟨e, he⟩ := exists_atPoint hcs pre b.toCore (envX ξ) hc
      exact ⟨e, fun _ => he⟩
    · exact ⟨env, fun h => absurd h hc⟩
  choose E hE using hex
  have hsplit : ∀ c < (t.length - 1) * order, ∃ n j, n < t.length - 1 ∧ j < order ∧ c = n * order + j := fun c hc =>
    ⟨c / order, c % order, Nat.div_lt_of_lt_mul (by rwa [Nat.mul_comm]), Nat.mod_lt _ hpos, (Nat.div_add_mod' c order).symm⟩
  have hX : ∀ c < (t.length - 1) * order, ∀ ξ i, s.X.val (envX ξ) i c = ξ i := by
    intro c hc ξ i
    obtain ⟨n, j, hn, hj, rfl⟩ := hsplit c hc
    rw [b.X _ i n j hn hj]
    simp [envX, Ne.symm f1]
  have hu : ∀ ξ i n, s.u.val (envX ξ) i n = s.u.val env i n := by
    intro ξ i n
    rw [b.u]
    simp [MXExpr.sym, envX, Ne.symm f2, Ne.symm f4]
  have hp : ∀ ξ i n, s.p.val (envX ξ) i n = s.p.val env i n := by
    intro ξ i n
    rw [b.p]
    simp [MXExpr.sym, envX, Ne.symm f3, Ne.symm f5]
  -- two assignments that belong to the same point
  have hpt : ∀ c < (t.length - 1) * order, ∀ (env₁ env₂ e₁ e₂ : Env ℝ), AtPoint s d xdot tdp_fun rep env₁ e₁ c →
      AtPoint s d xdot tdp_fun rep env₂ e₂ c → (∀ i < d.nu, s.u.val env₁ i (c / order) = s.u.val env₂ i (c / order)) →
      (∀ i < d.np, s.p.val env₁ i (if rep then c else 0) = s.p.val env₂ i (if rep then c else 0)) →
      ∀ δ, (∀ i < d.nx, |s.X.val env₁ i c - s.X.val env₂ i c| ≤ δ) → ∀ i < d.nx, |ode.val e₁ i 0 - ode.val e₂ i 0| ≤ L * δ := by
    intro c hc env₁ env₂ e₁ e₂ h₁ h₂ hu hp δ hδ
    refine lip.lipschitz e₁ e₂ ?_ ?_ ?_ ?_ δ ?_
    · intro i hi
      have hi' : i < d.u.rows := by rw [← pre.wf.nu]; exact hi
      rw [h₁.u i hi', h₂.u i hi', b.M_eq, hu i hi]
    · intro i hi
      have hi' : i < d.p.rows := hnp ▸ hi
      rw [h₁.p i hi', h₂.p i hi', hp i hi]
    · rw [h₁.t, h₂.t]
    · intro i hi j hj
      have := pre.tdpFun
      cases htf : tdp_fun with
      | none =>
        rw [htf] at this
        simp only at this
        rw [this.1] at hi
        exact absurd hi (Nat.not_lt_zero _)
      | some f => rw [h₁.tdp f htf i hi j hj, h₂.tdp f htf i hi j hj]
    · intro i hi
      have hi' : i < d.x.rows := by rw [← pre.wf.nx]; exact hi
      rw [h₁.x i hi', h₂.x i hi']
      exact hδ i hi
  refine ⟨fun c ξ i => ode.val (E c ξ) i 0, ?_, ?_⟩
  · intro c hc ξ ξ' δ hδ
    refine hpt c hc (envX ξ) (envX ξ') _ _ (hE c ξ hc) (hE c ξ' hc) (fun i _ => by rw [hu, hu]) (fun i _ => by rw [hp, hp]) δ ?_
    intro i hi
    rw [hX c hc, hX c hc]
    exact hδ i hi
  · intro env' hu' hp'
    rw [Scheme.eq_zero_iff pre b]
    have hres : ∀ c < (t.length - 1) * order, (∀ i < res.rows, s.eqCollocation.val env' i c = 0) ↔
        ∀ i < d.nx, env' (fresh "K") i c = ode.val (E c fun i => s.X.val env' i c) i 0 := by
      intro c hc
      obtain ⟨e, he⟩ := exists_atPoint hcs pre b.toCore env' hc
      have h1 : (∀ i < res.rows, s.eqCollocation.val env' i c = 0) ↔ ResidualZero res e := by
        constructor
        · intro h i hi j hj
          rw [pre.wf.res_cols] at hj
          have hj : j = 0 := by omega
          subst hj
          rw [← (he.out hcs pre b.toCore hc).1 i hi]
          exact h i hi
        · intro h i hi
          rw [(he.out hcs pre b.toCore hc).1 i hi]
          exact h i hi 0 (by rw [pre.wf.res_cols]; exact Nat.one_pos)
      rw [h1, lip.explicit]
      refine forall_congr' fun i => forall_congr' fun hi => ?_
      have h2 := hpt c hc env' (envX fun i => s.X.val env' i c) e _ he (hE c _ hc)
        (fun i hi => by rw [hu, hu' _ (Nat.div_lt_of_lt_mul (by rwa [Nat.mul_comm])) i hi])
        (fun i hi => by rw [hp, hp' _ (by split_ifs; exacts [hc, Nat.one_pos]) i hi]) 0
        (fun i hi => by rw [hX c hc, sub_self, abs_zero]) i hi
      rw [mul_zero] at h2
      rw [sub_eq_zero.mp (abs_nonpos_iff.mp h2), he.xdot i (by rw [← pre.wf.nx]; exact hi), b.Kd]
      rfl
    refine and_congr (forall_congr' fun c => forall_congr' fun hc => hres c hc) (and_congr ?_ ?_)
    · refine forall_congr' fun n => forall_congr' fun hn => forall_congr' fun i => forall_congr' fun _ => ?_
      rw [b.cont env' i n hn, sub_eq_zero]
      exact eq_comm
    · refine forall_congr' fun hr => forall_congr' fun c => forall_congr' fun hc => forall_congr' fun i => forall_congr' fun hi => ?_
      subst hr
      simp only [if_true] at hp'
      rw [hp' c hc i hi, hp' 0 (by omega) i hi]

/-- **C78** For an ordinary differential equation with a Lipschitz continuous right-hand side and steps that are small enough,
the collocation equations have a solution with given initial state, inputs and parameter. -/
theorem C78_exists (hcs : IsCsFunction csFunction)
    (pre : SchemePre freshI casadiPoints csFunction dae t order method tdp_fun d xdot res tau F)
    (hs : Scheme.new fresh freshI casadiPoints csFunction dae t order method tdp_fun rep = .ok s)
    (hf : [fresh "x", fresh "K", fresh "u", fresh "P"].Nodup) (ode : MXExpr ℝ) (L θ : ℝ) (lip : LipschitzOde d xdot res ode L)
    (hθ : θ < 1) (T : ButcherTableau ℝ) (hT : butcherTableuForCollocationPoints tau = .ok T)
    (hstep : ∀ n < s.N, ∀ j < s.M, L * (|nd t (n + 1) - nd t n| * ∑ k ∈ Finset.range s.M, |T.A.e [j, k]|) ≤ θ)
    (env : Env ℝ) (hrep : rep = true → ∀ c < s.N * s.M, ∀ i < d.np, s.p.val env i c = s.p.val env i 0) (x0 : ℕ → ℝ) :
    ∃ env', (∀ v ∈ s.eq.vals env', v = 0) ∧ (∀ i, s.x.val env' i 0 = x0 i) ∧
      (∀ i n, s.u.val env' i n = s.u.val env i n) ∧ (∀ i c, s.p.val env' i c = s.p.val env i c) := by
  have b := pre.built hs
  have hpos := pre.pos
  obtain ⟨G, hG, hiff⟩ := exists_rhs fresh freshI casadiPoints csFunction dae t order method tdp_fun d xdot res tau F rep s hcs pre b
    ode L lip hf env
  have hA : ∀ i j, T.A.e [i, j] = wA tau i j := by
    intro i j
    rw [butcher_ok] at hT; cases hT
    rfl
  rw [b.N_eq, b.M_eq] at hstep hrep
  simp only [List.nodup_cons, List.mem_cons, List.not_mem_nil, or_false, not_or, not_false_eq_true, List.nodup_nil, and_true] at hf
  obtain ⟨⟨f1, f2, f3⟩, ⟨f4, f5⟩, f6⟩ := hf
  -- the stages of interval n from a state
  have hst : ∀ (n : ℕ) (ξ : ℕ → ℝ), ∃ k : ℕ → ℕ → ℝ, n < t.length - 1 → ∀ i < d.nx, ∀ j < order,
      k i j = G (n * order + j) (stageState (wA tau) order (nd t (n + 1) - nd t n) ξ k j) i := by
    intro n ξ
    by_cases hn : n < t.length - 1
    · obtain ⟨k, hk⟩ := (stage_unique_solution d.nx order (wA tau) (nd t (n + 1) - nd t n) L θ lip.nonneg hθ
        (fun j hj => by simpa only [hA] using hstep n hn j hj) (fun j => G (n * order + j))
        (fun j hj => hG _ (block_lt hn hj)) ξ).1
      exact ⟨k, fun _ => hk⟩
    · exact ⟨fun _ _ => 0, fun h => absurd h hn⟩
  choose k hk using hst
  let xs : ℕ → ℕ → ℝ := fun n => Nat.rec x0 (fun n ξ i => ξ i + (nd t (n + 1) - nd t n) * ∑ l ∈ Finset.range order, k n ξ i l * wb tau l) n
  have hxs : ∀ n i, xs (n + 1) i = xs n i + (nd t (n + 1) - nd t n) * ∑ l ∈ Finset.range order, k n (xs n) i l * wb tau l :=
    fun n i => rfl
  let env' : Env ℝ := fun id i j => if id = fresh "x" then xs j i else
    if id = fresh "K" then k (j / order) (xs (j / order)) i (j % order) else env id i j
  have ex : ∀ i n, env' (fresh "x") i n = xs n i := fun i n => if_pos rfl
  have ek : ∀ i n j, j < order → env' (fresh "K") i (n * order + j) = k n (xs n) i j := by
    intro i n j hj
    show (if fresh "K" = fresh "x" then _ else if fresh "K" = fresh "K" then _ else _) = _
    rw [if_neg (Ne.symm f1), if_pos rfl, div_block hj, mod_block hj]
  have hu : ∀ i n, s.u.val env' i n = s.u.val env i n := by
    intro i n
    rw [b.u]
    simp [MXExpr.sym, env', Ne.symm f2, Ne.symm f4]
  have hp : ∀ i c, s.p.val env' i c = s.p.val env i c := by
    intro i c
    rw [b.p]
    simp [MXExpr.sym, env', Ne.symm f3, Ne.symm f5]
  refine ⟨env', (hiff env' (fun n _ i _ => hu i n) (fun c _ i _ => hp i c)).mpr ⟨?_, ?_, hrep⟩, ?_, hu, hp⟩
  · intro c hc i hi
    obtain ⟨n, j, hn, hj, rfl⟩ : ∃ n j, n < t.length - 1 ∧ j < order ∧ c = n * order + j :=
      ⟨c / order, c % order, Nat.div_lt_of_lt_mul (by rwa [Nat.mul_comm]), Nat.mod_lt _ hpos, (Nat.div_add_mod' c order).symm⟩
    rw [ek i n j hj, hk n (xs n) hn i hi j hj]
    congr 1
    funext i'
    rw [b.X env' i' n j hn hj, ex]
    refine congrArg₂ _ rfl (congrArg₂ _ rfl (Finset.sum_congr rfl fun l hl => ?_))
    rw [ek i' n l (Finset.mem_range.mp hl)]
  · intro n hn i hi
    rw [ex i (n + 1), ex i n, hxs]
    refine congrArg₂ _ rfl (congrArg₂ _ rfl (Finset.sum_congr rfl fun l hl => ?_))
    rw [ek i n l (Finset.mem_range.mp hl)]
  · intro i
    rw [b.x]
    exact ex i 0

/-- **C78** ... and only one. -/
theorem C78_unique (hcs : IsCsFunction csFunction)
    (pre : SchemePre freshI casadiPoints csFunction dae t order method tdp_fun d xdot res tau F)
    (hs : Scheme.new fresh freshI casadiPoints csFunction dae t order method tdp_fun rep = .ok s)
    (hf : [fresh "x", fresh "K", fresh "u", fresh "P"].Nodup) (ode : MXExpr ℝ) (L θ : ℝ) (lip : LipschitzOde d xdot res ode L)
    (hθ : θ < 1) (T : ButcherTableau ℝ) (hT : butcherTableuForCollocationPoints tau = .ok T)
    (hstep : ∀ n < s.N, ∀ j < s.M, L * (|nd t (n + 1) - nd t n| * ∑ k ∈ Finset.range s.M, |T.A.e [j, k]|) ≤ θ)
    (env₁ env₂ : Env ℝ) (h₁ : ∀ v ∈ s.eq.vals env₁, v = 0) (h₂ : ∀ v ∈ s.eq.vals env₂, v = 0)
    (hx : ∀ i < d.nx, s.x.val env₁ i 0 = s.x.val env₂ i 0) (hu : ∀ n < s.N, ∀ i < d.nu, s.u.val env₁ i n = s.u.val env₂ i n)
    (hp : ∀ i < d.np, s.p.val env₁ i 0 = s.p.val env₂ i 0) :
    (∀ n ≤ s.N, ∀ i < d.nx, s.x.val env₁ i n = s.x.val env₂ i n) ∧
    (∀ c < s.N * s.M, ∀ i < d.nx, s.Kd.val env₁ i c = s.Kd.val env₂ i c ∧ s.X.val env₁ i c = s.X.val env₂ i c) := by
  have b := pre.built hs
  have hpos := pre.pos
  obtain ⟨G, hG, hiff⟩ := exists_rhs fresh freshI casadiPoints csFunction dae t order method tdp_fun d xdot res tau F rep s hcs pre b
    ode L lip hf env₂
  have hA : ∀ i j, T.A.e [i, j] = wA tau i j := by
    intro i j
    rw [butcher_ok] at hT; cases hT
    rfl
  rw [b.N_eq, b.M_eq] at hstep ⊢
  rw [b.N_eq] at hu
  have hp' : ∀ c < (if rep then (t.length - 1) * order else 1), ∀ i < d.np, s.p.val env₁ i c = s.p.val env₂ i c := by
    intro c hc i hi
    cases hr : rep
    · rw [hr] at hc
      have hc : c = 0 := by simpa using hc
      rw [hc, hp i hi]
    · rw [hr] at hc
      simp only [if_true] at hc
      rw [((Scheme.eq_zero_iff pre b env₁).mp h₁).2.2 hr c hc i hi, ((Scheme.eq_zero_iff pre b env₂).mp h₂).2.2 hr c hc i hi, hp i hi]
  obtain ⟨k₁, c₁, -⟩ := (hiff env₁ hu hp').mp h₁
  obtain ⟨k₂, c₂, -⟩ := (hiff env₂ (fun _ _ _ _ => rfl) (fun _ _ _ _ => rfl)).mp h₂
  have ex : ∀ (env : Env ℝ) i n, s.x.val env i n = env (fresh "x") i n := fun env i n => by rw [b.x]; rfl
  simp only [ex] at hx ⊢
  have hstage : ∀ (env : Env ℝ), (∀ c < (t.length - 1) * order, ∀ i < d.nx, env (fresh "K") i c = G c (fun i => s.X.val env i c) i) →
      ∀ n < t.length - 1, ∀ i < d.nx, ∀ j < order, env (fresh "K") i (n * order + j) =
        G (n * order + j) (stageState (wA tau) order (nd t (n + 1) - nd t n) (fun i => env (fresh "x") i n)
          (fun i l => env (fresh "K") i (n * order + l)) j) i := by
    intro env h n hn i hi j hj
    rw [h _ (block_lt hn hj) i hi]
    congr 1
    funext i'
    rw [b.X env i' n j hn hj]
    rfl
  have hkeq : ∀ n < t.length - 1, (∀ i < d.nx, env₁ (fresh "x") i n = env₂ (fresh "x") i n) →
      ∀ i < d.nx, ∀ j < order, env₁ (fresh "K") i (n * order + j) = env₂ (fresh "K") i (n * order + j) := by
    intro n hn hxn
    refine (stage_unique_solution d.nx order (wA tau) (nd t (n + 1) - nd t n) L θ lip.nonneg hθ
        (fun j hj => by simpa only [hA] using hstep n hn j hj) (fun j => G (n * order + j))
        (fun j hj => hG _ (block_lt hn hj)) (fun i => env₂ (fresh "x") i n)).2 (fun i l => env₁ (fresh "K") i (n * order + l))
        (fun i l => env₂ (fresh "K") i (n * order + l)) ?_ (hstage env₂ k₂ n hn)
    intro i hi j hj
    show env₁ (fresh "K") i (n * order + j) = _
    rw [hstage env₁ k₁ n hn i hi j hj]
    refine sub_eq_zero.mp (abs_nonpos_iff.mp ?_)
    have := hG (n * order + j) (block_lt hn hj) (stageState (wA tau) order (nd t (n + 1) - nd t n) (fun i => env₁ (fresh "x") i n)
          (fun i l => env₁ (fresh "K") i (n * order + l)) j) (stageState (wA tau) order (nd t (n + 1) - nd t n)
          (fun i => env₂ (fresh "x") i n) (fun i l => env₁ (fresh "K") i (n * order + l)) j) 0
        (fun i hi => by simp [stageState, hxn i hi]) i hi
    rwa [mul_zero] at this
  have hxn : ∀ n ≤ t.length - 1, ∀ i < d.nx, env₁ (fresh "x") i n = env₂ (fresh "x") i n := by
    intro n
    induction n with
    | zero => intro _; exact hx
    | succ n ih =>
      intro hn i hi
      rw [c₁ n (by omega) i hi, c₂ n (by omega) i hi, ih (by omega) i hi]
      refine congrArg₂ _ rfl (congrArg₂ _ rfl (Finset.sum_congr rfl fun l hl => ?_))
      rw [hkeq n (by omega) (ih (by omega)) i hi l (Finset.mem_range.mp hl)]
  refine ⟨hxn, fun c hc i hi => ?_⟩
  obtain ⟨n, j, hn, hj, rfl⟩ : ∃ n j, n < t.length - 1 ∧ j < order ∧ c = n * order + j :=
    ⟨c / order, c % order, Nat.div_lt_of_lt_mul (by rwa [Nat.mul_comm]), Nat.mod_lt _ hpos, (Nat.div_add_mod' c order).symm⟩
  refine ⟨?_, ?_⟩
  · rw [b.Kd]
    exact hkeq n hn (hxn n (by omega)) i hi j hj
  · rw [b.X env₁ i n j hn hj, b.X env₂ i n j hn hj, hxn n (by omega) i hi]
    refine congrArg₂ _ rfl (congrArg₂ _ rfl (Finset.sum_congr rfl fun l hl => ?_))
    rw [hkeq n hn (hxn n (by omega)) i hi l (Finset.mem_range.mp hl)]

end

/-! ## Non-vacuity: `x' = -x` with the quadrature `x` -/

/-- The model. -/
noncomputable def decayO : DaeObj ℝ :=
  ⟨.sym 0 1, .sym 1 0, .sym 2 0, .sym 3 0, .sym 4 1, ⟨1, 1, false, fun env _ _ => env 0 0 0⟩, .sym 5 0,
    .semi ⟨1, 1, false, fun env _ _ => -env 0 0 0⟩ ⟨0, 1, false, fun _ _ _ => 0⟩⟩

/-- Its residual. -/
noncomputable def decayRes (freshI : String → ℕ) : MXExpr ℝ :=
  ⟨1, 1, false, fun env i j => if i < 1 then env (freshI "xdot") i j - -env 0 0 0 else 0⟩

/-- Its implicit form. -/
noncomputable def decayD (freshI : String → ℕ) : DaeObj ℝ :=
  ⟨.sym 0 1, .sym 1 0, .sym 2 0, .sym 3 0, .sym 4 1, ⟨1, 1, false, fun env _ _ => env 0 0 0⟩, .sym 5 0, .implicit (.sym (freshI "xdot") 1) (decayRes freshI)⟩

theorem decay_pre (freshI : String → ℕ) (hI : 7 ≤ freshI "xdot") (t tau : List ℝ) (two : 2 ≤ t.length) (pos : 0 < tau.length) :
    ∃ F : CsFn ℝ, SchemePre freshI (fun _ _ => .ok tau) idealCsFunction decayO t tau.length "legendre" none (decayD freshI)
        (.sym (freshI "xdot") 1) (decayRes freshI) tau F := by
  have hfun := isFunctionOf_syms (K := ℝ) [(freshI "xdot", 1, 1), (0, 1, 1), (1, 0, 1), (2, 0, 1), (3, 0, 1), (4, 1, 1), (5, 0, 1)]
    (by simp; omega) [decayRes freshI, ⟨1, 1, false, fun env _ _ => env 0 0 0⟩] (by
      intro o ho env1 env2 h
      simp only [List.mem_cons, List.not_mem_nil, or_false, forall_eq_or_imp, forall_eq] at h ho
      have h0 := h.2.1 0 (by omega) 0 (by omega)
      rcases ho with rfl | rfl
      · refine ⟨rfl, rfl, ?_⟩
        intro i hi j hj
        have hx := h.1 i hi j hj
        simp only [decayRes, MXExpr.at', h0, hx]
      · exact ⟨rfl, rfl, fun i _ j _ => h0⟩)
  have hF : ∃ F, idealCsFunction [MXExpr.sym (freshI "xdot") 1, .sym 0 1, .sym 1 0, .sym 2 0, .sym 3 0, .sym 4 1, .sym 5 0]
      [decayRes freshI, ⟨1, 1, false, fun env _ _ => env 0 0 0⟩] = .ok F := by
    unfold idealCsFunction
    rw [dif_pos ⟨_, hfun⟩]
    exact ⟨_, rfl⟩
  obtain ⟨F, hF⟩ := hF
  exact ⟨F, rfl, ⟨rfl, rfl, rfl, rfl, ⟨rfl, rfl⟩, rfl, rfl, rfl, rfl⟩, rfl, rfl, two, pos, rfl, rfl, ⟨rfl, rfl⟩, hF⟩

theorem decay_lipschitz (freshI : String → ℕ) : LipschitzOde (decayD freshI) (.sym (freshI "xdot") 1) (decayRes freshI)
    ⟨1, 1, false, fun env _ _ => -env 0 0 0⟩ 1 := by
  refine ⟨rfl, ?_, zero_le_one, ?_⟩
  · intro e
    constructor
    · intro h i hi
      change i < 1 at hi
      have hi : i = 0 := by omega
      subst hi
      have := h 0 Nat.one_pos 0 Nat.one_pos
      simp only [decayRes, Nat.zero_lt_one, if_true] at this
      exact sub_eq_zero.mp this
    · intro h i hi j hj
      change i < 1 at hi
      change j < 1 at hj
      have hi : i = 0 := by omega
      have hj : j = 0 := by omega
      subst hi hj
      have := h 0 Nat.one_pos
      simp only [decayRes, Nat.zero_lt_one, if_true]
      exact sub_eq_zero.mpr this
  · intro e e' _ _ _ _ δ hδ i _
    have := hδ 0 Nat.one_pos
    show |(-e 0 0 0) - (-e' 0 0 0)| ≤ 1 * δ
    rw [one_mul, show -e 0 0 0 - -e' 0 0 0 = -(e 0 0 0 - e' 0 0 0) by ring, abs_neg]
    exact this

/-- C78: one step of length 1 of the midpoint rule from every initial value, unique. -/
example (freshI : String → ℕ) (hI : 7 ≤ freshI "xdot") (a : ℝ) : ∃ s env,
    Scheme.new exFresh freshI (fun _ _ => .ok [1 / 2]) idealCsFunction decayO [0, 1] 1 "legendre" none = .ok s ∧
    (∀ v ∈ s.eq.vals env, v = 0) ∧ s.x.val env 0 0 = a ∧
    ∀ env', (∀ v ∈ s.eq.vals env', v = 0) → s.x.val env' 0 0 = a → s.x.val env' 0 1 = s.x.val env 0 1 := by
  obtain ⟨F, pre⟩ := decay_pre freshI hI [0, 1] [1 / 2] (by simp) (by simp)
  obtain ⟨s, hs⟩ := C26_constructed exFresh freshI _ _ _ _ _ _ _ _ _ _ _ _ false pre
  have b := pre.built hs
  have hN : s.N = 1 := b.N_eq
  have hM : s.M = 1 := b.M_eq
  obtain ⟨T, hT, hA, -⟩ := C09_butcher_consistent ([1 / 2] : List ℝ) (by simp) (by simp)
  obtain ⟨T', hT', -, -, -, hc, -⟩ := C08_butcher_exact ([1 / 2] : List ℝ) (by simp)
  rw [hT] at hT'
  cases hT'
  have hA0 : T.A.e [0, 0] = 1 / 2 := by
    have := hA 0 (by simp)
    rw [hc 0 (by simp)] at this
    simpa using this
  have hf : [exFresh "x", exFresh "K", exFresh "u", exFresh "P"].Nodup := by decide
  have hstep : ∀ n < s.N, ∀ j < s.M, (1 : ℝ) * (|nd ([0, 1] : List ℝ) (n + 1) - nd ([0, 1] : List ℝ) n| *
      ∑ k ∈ Finset.range s.M, |T.A.e [j, k]|) ≤ 1 / 2 := by
    intro n hn j hj
    rw [hN] at hn
    rw [hM] at hj ⊢
    have hn : n = 0 := by omega
    have hj : j = 0 := by omega
    subst hn hj
    rw [Finset.sum_range_one, hA0]
    norm_num
  obtain ⟨env, heq, hx, -, -⟩ := C78_exists exFresh freshI _ _ _ _ _ _ _ _ _ _ _ _ false s idealCsFunction_spec pre hs hf _ 1 (1 / 2)
    (decay_lipschitz freshI) (by norm_num) T hT hstep (fun _ _ _ => 0) (fun h => by cases h) (fun _ => a)
  refine ⟨s, env, hs, heq, hx 0, fun env' h' hx' => ?_⟩
  refine (C78_unique exFresh freshI _ _ _ _ _ _ _ _ _ _ _ _ false s idealCsFunction_spec pre hs hf _ 1 (1 / 2)
    (decay_lipschitz freshI) (by norm_num) T hT hstep env' env h' heq ?_ ?_ ?_).1 1 (by rw [hN]) 0 Nat.one_pos
  · intro i hi
    change i < 1 at hi
    have hi : i = 0 := by omega
    subst hi
    rw [hx', hx]
  · intro n _ i hi; exact absurd hi (Nat.not_lt_zero _)
  · intro i hi; exact absurd hi (Nat.not_lt_zero _)

end CE
