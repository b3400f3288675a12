import Verif.Num.PropsAdjoint
import Mathlib.Analysis.Convex.Basic
import Mathlib.Data.EReal.Basic

/-! # C136: optimality conditions of discretised optimal control problems -/

namespace CE

open Filter Topology

/-- `g`, `γ` is the gradient of the cost `Φ`, a function of `nx` final states and of `nu` inputs on `N` intervals, at `x`, `u`. -/
def CostGradient (nx nu N : ℕ) (Φ : (ℕ → ℝ) → (ℕ → ℕ → ℝ) → ℝ) (x : ℕ → ℝ) (u : ℕ → ℕ → ℝ) (g : ℕ → ℝ) (γ : ℕ → ℕ → ℝ) : Prop :=
  ∀ (y : ℝ → ℕ → ℝ) (v : ℝ → ℕ → ℕ → ℝ), (∀ i < nx, y 0 i = x i) → (∀ m < N, ∀ k < nu, v 0 k m = u k m) →
    (∀ i < nx, DifferentiableAt ℝ (fun ε => y ε i) 0) → (∀ m < N, ∀ k < nu, DifferentiableAt ℝ (fun ε => v ε k m) 0) →
    HasDerivAt (fun ε => Φ (y ε) (v ε)) (∑ i ∈ Finset.range nx, g i * deriv (fun ε => y ε i) 0 +
      ∑ m ∈ Finset.range N, ∑ k ∈ Finset.range nu, γ k m * deriv (fun ε => v ε k m) 0) 0

/-- Numbers between bounds that may be infinite. -/
def InBox (nu N : ℕ) (lb ub : ℕ → ℕ → EReal) : Set (ℕ → ℕ → ℝ) := {v | ∀ m < N, ∀ k < nu, lb k m ≤ (v k m : EReal) ∧ (v k m : EReal) ≤ ub k m}

theorem inBox_convex (nu N : ℕ) (lb ub : ℕ → ℕ → EReal) : Convex ℝ (InBox nu N lb ub) := by
  intro v hv w hw a b ha hb hab m hm k hk
  have hc : ({r : ℝ | lb k m ≤ (r : EReal) ∧ (r : EReal) ≤ ub k m}).OrdConnected :=
    ⟨fun x hx y hy z hz => ⟨hx.1.trans (EReal.coe_le_coe_iff.mpr hz.1), (EReal.coe_le_coe_iff.mpr hz.2).trans hy.2⟩⟩
  exact hc.convex (hv m hm k hk) (hw m hm k hk) ha hb hab

theorem sum_single {nu N : ℕ} (G u : ℕ → ℕ → ℝ) {k m : ℕ} (hk : k < nu) (hm : m < N) (r : ℝ) :
    ∑ m' ∈ Finset.range N, ∑ k' ∈ Finset.range nu, G k' m' * ((if k' = k ∧ m' = m then r else u k' m') - u k' m') = G k m * (r - u k m) := by
  rw [Finset.sum_eq_single m, Finset.sum_eq_single k]
  · rw [if_pos ⟨rfl, rfl⟩]
  · intro k' _ hne
    rw [if_neg (fun h => hne h.1), sub_self, mul_zero]
  · exact fun h => absurd (Finset.mem_range.mpr hk) h
  · intro m' _ hne
    exact Finset.sum_eq_zero fun k' _ => by rw [if_neg (fun h => hne h.2), sub_self, mul_zero]
  · exact fun h => absurd (Finset.mem_range.mpr hm) h

theorem box_sign {nu N : ℕ} {lb ub : ℕ → ℕ → EReal} {G u : ℕ → ℕ → ℝ} (hu : u ∈ InBox nu N lb ub)
    (h : ∀ w ∈ InBox nu N lb ub, 0 ≤ ∑ m ∈ Finset.range N, ∑ k ∈ Finset.range nu, G k m * (w k m - u k m)) {m k : ℕ} (hm : m < N) (hk : k < nu) :
    ((u k m : EReal) < ub k m → 0 ≤ G k m) ∧ (lb k m < (u k m : EReal) → G k m ≤ 0) := by
  have key : ∀ r : ℝ, lb k m ≤ (r : EReal) → (r : EReal) ≤ ub k m → 0 ≤ G k m * (r - u k m) := by
    intro r h1 h2
    rw [← sum_single G u hk hm r]
    refine h _ fun m' hm' k' hk' => ?_
    split_ifs with hh
    · rw [hh.1, hh.2]
      exact ⟨h1, h2⟩
    · exact hu m' hm' k' hk'
  constructor
  · intro hlt
    obtain ⟨r, h1, h2⟩ := EReal.lt_iff_exists_real_btwn.mp hlt
    have h3 := EReal.coe_lt_coe_iff.mp h1
    exact nonneg_of_mul_nonneg_left (key r ((hu m hm k hk).1.trans h1.le) h2.le) (sub_pos.mpr h3)
  · intro hlt
    obtain ⟨r, h1, h2⟩ := EReal.lt_iff_exists_real_btwn.mp hlt
    have h3 := EReal.coe_lt_coe_iff.mp h2
    have := key r h1.le (h2.le.trans (hu m hm k hk).2)
    nlinarith

section

variable (fresh fresh' freshI freshI' : String → ℕ) (casadiPoints : ℕ → String → Except PyErr (List ℝ))
    (csFunction : List (MXExpr ℝ) → List (MXExpr ℝ) → Except PyErr (CsFn ℝ))
    (dae dae' : DaeObj ℝ) (t : List ℝ) (order : ℕ) (method : String) (tdp_fun : Option (ℝ → Mat ℝ))
    (d d' : DaeObj ℝ) (xdot res xdot' res' : MXExpr ℝ) (tau : List ℝ) (F F' : CsFn ℝ) (rep : Bool) (s s' : Scheme ℝ)
    (fresh₂ freshI₂ : String → ℕ) (dae₂ d₂ : DaeObj ℝ) (xdot₂ res₂ : MXExpr ℝ) (F₂ : CsFn ℝ)

/-- **C136** (gradient) The derivative of the cost along solutions of the collocation equations with fixed initial states and parameters
and varying inputs: the gradient consists of the increments of the quadratures of the adjoint model whose final adjoint state is the
gradient of the cost, and of the gradient of the cost with respect to the inputs. -/
theorem C136_gradient (hcs : IsCsFunction csFunction)
    (pre : SchemePre freshI casadiPoints csFunction dae t order method tdp_fun d xdot res tau F)
    (pre' : SchemePre freshI' casadiPoints csFunction dae' t order method tdp_fun d' xdot' res' tau F')
    (pre₂ : SchemePre freshI₂ casadiPoints csFunction dae₂ t order method tdp_fun d₂ xdot₂ res₂ tau F₂)
    (hs : Scheme.new fresh freshI casadiPoints csFunction dae t order method tdp_fun rep = .ok s)
    (hs' : Scheme.new fresh' freshI' casadiPoints csFunction dae' t order method tdp_fun rep = .ok s')
    (hfr : DistinctSyms fresh) (hfr₂ : DistinctSyms fresh₂) (hT : LinearTangent d d₂ xdot xdot₂ res res₂ tdp_fun)
    (L Lz G Gz θ : ℝ) (reg : RegularDae d xdot res L Lz G Gz)
    (T : ButcherTableau ℝ) (hTab : butcherTableuForCollocationPoints tau = .ok T) (α β H : ℝ)
    (hα : ∀ j < order, ∑ k ∈ Finset.range order, |T.A.e [j, k]| ≤ α) (hβ : ∑ k ∈ Finset.range order, |T.b.e [k]| ≤ β)
    (ht : ∀ n < t.length - 1, nd t n ≤ nd t (n + 1) ∧ nd t (n + 1) - nd t n ≤ H) (hθ : θ < 1) (hstep : L * (H * α) ≤ θ)
    (hd : tau.Nodup) (hg : IsGauss tau) (hA : Adjoint d d' xdot xdot' res res' tdp_fun)
    (env : ℝ → Env ℝ) (env' : Env ℝ) (h : ∀ᶠ ε in 𝓝 0, ∀ v ∈ s.eq.vals (env ε), v = 0) (h' : ∀ v ∈ s'.eq.vals env', v = 0)
    (hx : ∀ ε, ∀ i < d.nx, s.x.val (env ε) i 0 = s'.x.val env' i 0)
    (hu : ∀ n < s.N, ∀ i < d.nu, DifferentiableAt ℝ (fun ε => s.u.val (env ε) i n) 0 ∧ s'.u.val env' i n = s.u.val (env 0) i n)
    (hp : ∀ ε, ∀ c < (if rep then s.N * s.M else 1), ∀ i < d.np, s.p.val (env ε) i c = s'.p.val env' i c)
    (Φ : (ℕ → ℝ) → (ℕ → ℕ → ℝ) → ℝ) (g : ℕ → ℝ) (γ : ℕ → ℕ → ℝ)
    (hΦ : CostGradient d.nx d.nu s.N Φ (fun i => s.x.val (env 0) i s.N) (s.u.val (env 0)) g γ)
    (hfin : ∀ i < d.nx, s'.x.val env' (d.nx + i) s.N = g i) :
    HasDerivAt (fun ε => Φ (fun i => s.x.val (env ε) i s.N) (s.u.val (env ε)))
      (∑ m ∈ Finset.range s.N, ∑ k ∈ Finset.range d.nu,
        (s'.q.val env' k (m + 1) - s'.q.val env' k m + γ k m) * deriv (fun ε => s.u.val (env ε) k m) 0) 0 := by
  have b := pre.built hs
  have hN : 0 < s.N * s.M := by rw [b.N_eq, b.M_eq]; exact Nat.mul_pos (by have := pre.two; omega) pre.pos
  have h1 : 0 < (if rep then s.N * s.M else 1) := by split_ifs; exacts [hN, Nat.one_pos]
  have hx0 : ∀ i < d.nx, (fun ε => s.x.val (env ε) i 0) = fun _ => s'.x.val env' i 0 := fun i hi => funext fun ε => hx ε i hi
  have hp0 : ∀ c < (if rep then s.N * s.M else 1), ∀ i < d.np, (fun ε => s.p.val (env ε) i c) = fun _ => s'.p.val env' i c :=
    fun c hc i hi => funext fun ε => hp ε c hc i hi
  obtain ⟨k1, k2⟩ := C134_regular fresh fresh' freshI freshI' casadiPoints csFunction dae dae' t order method tdp_fun d d' xdot res xdot' res'
    tau F F' rep s s' fresh₂ freshI₂ dae₂ d₂ xdot₂ res₂ F₂ hcs pre pre' pre₂ hs hs' hfr hfr₂ hT L Lz G Gz θ reg T hTab α β H hα hβ ht hθ
    hstep hd hg hA env env' h h' (fun i hi => ⟨by rw [hx0 i hi]; exact differentiableAt_const _, (hx 0 i hi).symm⟩) hu
    (fun c hc i hi => ⟨by rw [hp0 c hc i hi]; exact differentiableAt_const _, (hp 0 c hc i hi).symm⟩)
  have k2 := k2 s.N le_rfl
  have key := hΦ (fun ε i => s.x.val (env ε) i s.N) (fun ε => s.u.val (env ε)) (fun _ _ => rfl) (fun _ _ _ _ => rfl)
    (fun i hi => k1 s.N le_rfl i hi) (fun m hm k hk => (hu m hm k hk).1)
  refine key.congr_deriv ?_
  have e1 : ∑ i ∈ Finset.range d.nx, g i * deriv (fun ε => s.x.val (env ε) i s.N) 0 =
      ∑ m ∈ Finset.range s.N, ∑ k ∈ Finset.range d.nu,
        (s'.q.val env' k (m + 1) - s'.q.val env' k m) * deriv (fun ε => s.u.val (env ε) k m) 0 := by
    rw [Finset.sum_congr rfl fun i hi => by rw [← hfin i (Finset.mem_range.mp hi)], k2,
      Finset.sum_eq_zero fun i hi => by rw [hx0 i (Finset.mem_range.mp hi), deriv_const, mul_zero],
      Finset.sum_eq_zero (s := Finset.range d.np) fun i hi => by rw [hp0 0 h1 i (Finset.mem_range.mp hi), deriv_const, mul_zero],
      zero_add, add_zero]
  rw [e1, ← Finset.sum_add_distrib]
  refine Finset.sum_congr rfl fun m _ => ?_
  rw [← Finset.sum_add_distrib]
  exact Finset.sum_congr rfl fun k _ => by ring

/-- **C136** (necessary condition) Inputs from a convex set that minimise the cost, over all solutions of the collocation equations with the
same initial states and parameters and inputs from the set, satisfy the variational inequality with the adjoint gradient. -/
theorem C136_optimal (hcs : IsCsFunction csFunction)
    (pre : SchemePre freshI casadiPoints csFunction dae t order method tdp_fun d xdot res tau F)
    (pre' : SchemePre freshI' casadiPoints csFunction dae' t order method tdp_fun d' xdot' res' tau F')
    (pre₂ : SchemePre freshI₂ casadiPoints csFunction dae₂ t order method tdp_fun d₂ xdot₂ res₂ tau F₂)
    (hs : Scheme.new fresh freshI casadiPoints csFunction dae t order method tdp_fun rep = .ok s)
    (hs' : Scheme.new fresh' freshI' casadiPoints csFunction dae' t order method tdp_fun rep = .ok s')
    (hfr : DistinctSyms fresh) (hfr₂ : DistinctSyms fresh₂) (hT : LinearTangent d d₂ xdot xdot₂ res res₂ tdp_fun)
    (L Lz G Gz θ : ℝ) (reg : RegularDae d xdot res L Lz G Gz) (hsol : Solvable d xdot res)
    (T : ButcherTableau ℝ) (hTab : butcherTableuForCollocationPoints tau = .ok T) (α β H : ℝ)
    (hα : ∀ j < order, ∑ k ∈ Finset.range order, |T.A.e [j, k]| ≤ α) (hβ : ∑ k ∈ Finset.range order, |T.b.e [k]| ≤ β)
    (ht : ∀ n < t.length - 1, nd t n ≤ nd t (n + 1) ∧ nd t (n + 1) - nd t n ≤ H) (hθ : θ < 1) (hstep : L * (H * α) ≤ θ)
    (hd : tau.Nodup) (hg : IsGauss tau) (hA : Adjoint d d' xdot xdot' res res' tdp_fun)
    (env₀ env' : Env ℝ) (h : ∀ v ∈ s.eq.vals env₀, v = 0) (h' : ∀ v ∈ s'.eq.vals env', v = 0)
    (hx : ∀ i < d.nx, s.x.val env₀ i 0 = s'.x.val env' i 0)
    (hu : ∀ n < s.N, ∀ i < d.nu, s'.u.val env' i n = s.u.val env₀ i n)
    (hp : ∀ c < (if rep then s.N * s.M else 1), ∀ i < d.np, s.p.val env₀ i c = s'.p.val env' i c)
    (Φ : (ℕ → ℝ) → (ℕ → ℕ → ℝ) → ℝ) (g : ℕ → ℝ) (γ : ℕ → ℕ → ℝ)
    (hloc : ∀ (x y : ℕ → ℝ) (u : ℕ → ℕ → ℝ), (∀ i < d.nx, x i = y i) → Φ x u = Φ y u)
    (hΦ : CostGradient d.nx d.nu s.N Φ (fun i => s.x.val env₀ i s.N) (s.u.val env₀) g γ)
    (hfin : ∀ i < d.nx, s'.x.val env' (d.nx + i) s.N = g i)
    (U : Set (ℕ → ℕ → ℝ)) (hU : Convex ℝ U) (hu₀ : s.u.val env₀ ∈ U)
    (hmin : ∀ env, (∀ v ∈ s.eq.vals env, v = 0) → (∀ i < d.nx, s.x.val env i 0 = s.x.val env₀ i 0) →
      (∀ c < (if rep then s.N * s.M else 1), ∀ i < d.np, s.p.val env i c = s.p.val env₀ i c) → s.u.val env ∈ U →
      Φ (fun i => s.x.val env₀ i s.N) (s.u.val env₀) ≤ Φ (fun i => s.x.val env i s.N) (s.u.val env)) :
    ∀ w ∈ U, 0 ≤ ∑ m ∈ Finset.range s.N, ∑ k ∈ Finset.range d.nu,
      (s'.q.val env' k (m + 1) - s'.q.val env' k m + γ k m) * (w k m - s.u.val env₀ k m) := by
  intro w hw
  have b := pre.built hs
  have hL := reg.nonneg.1
  have hstep' : ∀ n < s.N, ∀ j < s.M, L * (|nd t (n + 1) - nd t n| * ∑ k ∈ Finset.range s.M, |T.A.e [j, k]|) ≤ θ := fun n hn j hj => by
    rw [b.N_eq] at hn
    rw [b.M_eq] at hj ⊢
    refine (mul_le_mul_of_nonneg_left ?_ hL).trans hstep
    have hn0 := ht n hn
    rw [abs_of_nonneg (by linarith)]
    exact mul_le_mul hn0.2 (hα j hj) (Finset.sum_nonneg fun _ _ => abs_nonneg _) (by linarith)
  have hN : 0 < s.N * s.M := by rw [b.N_eq, b.M_eq]; exact Nat.mul_pos (by have := pre.two; omega) pre.pos
  have h1 : 0 < (if rep then s.N * s.M else 1) := by split_ifs; exacts [hN, Nat.one_pos]
  -- the inputs on the way to `w`
  let base : ℝ → Env ℝ := fun ε id => if id = fresh "u" then fun i n => env₀ (fresh "u") i n + ε * (w i n - env₀ (fresh "u") i n) else env₀ id
  have hbu : ∀ ε i n, s.u.val (base ε) i n = s.u.val env₀ i n + ε * (w i n - s.u.val env₀ i n) := fun ε i n => by
    rw [b.u]
    change base ε (fresh "u") i n = env₀ (fresh "u") i n + ε * (w i n - env₀ (fresh "u") i n)
    simp only [base, if_true]
  have hbp : ∀ ε i c, s.p.val (base ε) i c = s.p.val env₀ i c := fun ε i c => by
    rw [b.p]
    change base ε (fresh "P") i c = env₀ (fresh "P") i c
    simp only [base, if_neg hfr.uP.symm]
  have hrep : rep = true → ∀ c < s.N * s.M, ∀ i < d.np, s.p.val env₀ i c = s.p.val env₀ i 0 := by
    rw [b.N_eq, b.M_eq]
    exact ((Scheme.eq_zero_iff pre b env₀).mp h).2.2
  have hnodup : [fresh "x", fresh "K", fresh "Z", fresh "u", fresh "P"].Nodup := by
    simp [hfr.xK, hfr.xZ, hfr.xu, hfr.xP, hfr.KZ, hfr.Ku, hfr.KP, hfr.Zu, hfr.ZP, hfr.uP]
  have hex : ∀ ε, ∃ e, (∀ v ∈ s.eq.vals e, v = 0) ∧ (∀ i, s.x.val e i 0 = s.x.val env₀ i 0) ∧
      (∀ i n, s.u.val e i n = s.u.val env₀ i n + ε * (w i n - s.u.val env₀ i n)) ∧ ∀ i c, s.p.val e i c = s.p.val env₀ i c := fun ε => by
    obtain ⟨e, e1, e2, e3, e4⟩ := C88_exists fresh freshI casadiPoints csFunction dae t order method tdp_fun d xdot res tau F rep s hcs pre hs
      hnodup L Lz θ (reg.indexOne pre.wf.res_cols) hsol hθ T hTab hstep' (base ε)
      (fun hr c hc i hi => by rw [hbp, hbp]; exact hrep hr c hc i hi) (fun i => s.x.val env₀ i 0)
    exact ⟨e, e1, e2, fun i n => by rw [e3, hbu], fun i c => by rw [e4, hbp]⟩
  choose env e1 e2 e3 e4 using hex
  -- the family passes through the minimiser
  have e30 : s.u.val (env 0) = s.u.val env₀ := by
    funext i n
    rw [e3, zero_mul, add_zero]
  obtain ⟨q1, -⟩ := C88_unique fresh freshI casadiPoints csFunction dae t order method tdp_fun d xdot res tau F rep s hcs pre hs L Lz θ
    (reg.indexOne pre.wf.res_cols) hθ T hTab hstep' (env 0) env₀ (e1 0) h (fun i _ => e2 0 i) (fun n _ i _ => by rw [e30])
    (fun i _ => e4 0 i 0)
  have hD : ∀ i n, HasDerivAt (fun ε => s.u.val (env ε) i n) (w i n - s.u.val env₀ i n) 0 := fun i n => by
    have : (fun ε => s.u.val (env ε) i n) = fun ε => s.u.val env₀ i n + ε * (w i n - s.u.val env₀ i n) := funext fun ε => e3 ε i n
    rw [this]
    exact (((hasDerivAt_id (0 : ℝ)).mul_const _).const_add _).congr_deriv (one_mul _)
  have key := C136_gradient fresh fresh' freshI freshI' casadiPoints csFunction dae dae' t order method tdp_fun d d' xdot res xdot' res'
    tau F F' rep s s' fresh₂ freshI₂ dae₂ d₂ xdot₂ res₂ F₂ hcs pre pre' pre₂ hs hs' hfr hfr₂ hT L Lz G Gz θ reg T hTab α β H hα hβ ht hθ
    hstep hd hg hA env env' (Eventually.of_forall e1) h' (fun ε i hi => (e2 ε i).trans (hx i hi))
    (fun n hn i hi => ⟨(hD i n).differentiableAt, by rw [e30]; exact hu n hn i hi⟩)
    (fun ε c hc i hi => (e4 ε i c).trans (hp c hc i hi)) Φ g γ
    (fun y v hy hv dy dv => hΦ y v (fun i hi => (hy i hi).trans (q1 s.N le_rfl i hi)) (fun m hm k hk => by rw [hv m hm k hk, e30]) dy dv) hfin
  simp only [(hD _ _).deriv] at key
  -- a function that is not smaller to the right of 0 has a nonnegative derivative
  refine ge_of_tendsto (hasDerivAt_iff_tendsto_slope_zero.mp key |>.mono_left (nhdsGT_le_nhdsNE 0)) ?_
  filter_upwards [Ioc_mem_nhdsGT (zero_lt_one : (0 : ℝ) < 1)] with ε hε
  have hmem : s.u.val (env ε) ∈ U := by
    have := hU hu₀ hw (sub_nonneg.mpr hε.2) hε.1.le (by ring)
    have e : (1 - ε) • s.u.val env₀ + ε • w = s.u.val (env ε) := by
      funext i n
      rw [e3]
      simp only [Pi.add_apply, Pi.smul_apply, smul_eq_mul]
      ring
    rwa [e] at this
  have hle := hmin (env ε) (e1 ε) (fun i _ => e2 ε i) (fun c _ i _ => e4 ε i c) hmem
  have h0 : Φ (fun i => s.x.val (env 0) i s.N) (s.u.val (env 0)) = Φ (fun i => s.x.val env₀ i s.N) (s.u.val env₀) := by
    rw [e30]
    exact hloc _ _ _ fun i hi => q1 s.N le_rfl i hi
  simp only [zero_add, smul_eq_mul, h0]
  exact mul_nonneg (inv_nonneg.mpr hε.1.le) (sub_nonneg.mpr hle)

/-- **C136** (bounds) Inputs that minimise the cost over all solutions of the collocation equations with the same initial states and
parameters and inputs between bounds, which may be infinite: the adjoint gradient is not negative for an input below its upper bound and
not positive for an input above its lower bound, hence 0 for inputs strictly between their bounds and for inputs without bounds. -/
theorem C136_bounds (hcs : IsCsFunction csFunction)
    (pre : SchemePre freshI casadiPoints csFunction dae t order method tdp_fun d xdot res tau F)
    (pre' : SchemePre freshI' casadiPoints csFunction dae' t order method tdp_fun d' xdot' res' tau F')
    (pre₂ : SchemePre freshI₂ casadiPoints csFunction dae₂ t order method tdp_fun d₂ xdot₂ res₂ tau F₂)
    (hs : Scheme.new fresh freshI casadiPoints csFunction dae t order method tdp_fun rep = .ok s)
    (hs' : Scheme.new fresh' freshI' casadiPoints csFunction dae' t order method tdp_fun rep = .ok s')
    (hfr : DistinctSyms fresh) (hfr₂ : DistinctSyms fresh₂) (hT : LinearTangent d d₂ xdot xdot₂ res res₂ tdp_fun)
    (L Lz G Gz θ : ℝ) (reg : RegularDae d xdot res L Lz G Gz) (hsol : Solvable d xdot res)
    (T : ButcherTableau ℝ) (hTab : butcherTableuForCollocationPoints tau = .ok T) (α β H : ℝ)
    (hα : ∀ j < order, ∑ k ∈ Finset.range order, |T.A.e [j, k]| ≤ α) (hβ : ∑ k ∈ Finset.range order, |T.b.e [k]| ≤ β)
    (ht : ∀ n < t.length - 1, nd t n ≤ nd t (n + 1) ∧ nd t (n + 1) - nd t n ≤ H) (hθ : θ < 1) (hstep : L * (H * α) ≤ θ)
    (hd : tau.Nodup) (hg : IsGauss tau) (hA : Adjoint d d' xdot xdot' res res' tdp_fun)
    (env₀ env' : Env ℝ) (h : ∀ v ∈ s.eq.vals env₀, v = 0) (h' : ∀ v ∈ s'.eq.vals env', v = 0)
    (hx : ∀ i < d.nx, s.x.val env₀ i 0 = s'.x.val env' i 0)
    (hu : ∀ n < s.N, ∀ i < d.nu, s'.u.val env' i n = s.u.val env₀ i n)
    (hp : ∀ c < (if rep then s.N * s.M else 1), ∀ i < d.np, s.p.val env₀ i c = s'.p.val env' i c)
    (Φ : (ℕ → ℝ) → (ℕ → ℕ → ℝ) → ℝ) (g : ℕ → ℝ) (γ : ℕ → ℕ → ℝ)
    (hloc : ∀ (x y : ℕ → ℝ) (u : ℕ → ℕ → ℝ), (∀ i < d.nx, x i = y i) → Φ x u = Φ y u)
    (hΦ : CostGradient d.nx d.nu s.N Φ (fun i => s.x.val env₀ i s.N) (s.u.val env₀) g γ)
    (hfin : ∀ i < d.nx, s'.x.val env' (d.nx + i) s.N = g i)
    (lb ub : ℕ → ℕ → EReal) (hu₀ : s.u.val env₀ ∈ InBox d.nu s.N lb ub)
    (hmin : ∀ env, (∀ v ∈ s.eq.vals env, v = 0) → (∀ i < d.nx, s.x.val env i 0 = s.x.val env₀ i 0) →
      (∀ c < (if rep then s.N * s.M else 1), ∀ i < d.np, s.p.val env i c = s.p.val env₀ i c) → s.u.val env ∈ InBox d.nu s.N lb ub →
      Φ (fun i => s.x.val env₀ i s.N) (s.u.val env₀) ≤ Φ (fun i => s.x.val env i s.N) (s.u.val env)) :
    ∀ m < s.N, ∀ k < d.nu,
      ((s.u.val env₀ k m : EReal) < ub k m → 0 ≤ s'.q.val env' k (m + 1) - s'.q.val env' k m + γ k m) ∧
      (lb k m < (s.u.val env₀ k m : EReal) → s'.q.val env' k (m + 1) - s'.q.val env' k m + γ k m ≤ 0) := by
  intro m hm k hk
  exact box_sign (G := fun k m => s'.q.val env' k (m + 1) - s'.q.val env' k m + γ k m) hu₀
    (C136_optimal fresh fresh' freshI freshI' casadiPoints csFunction dae dae' t order method tdp_fun d d' xdot res xdot' res'
      tau F F' rep s s' fresh₂ freshI₂ dae₂ d₂ xdot₂ res₂ F₂ hcs pre pre' pre₂ hs hs' hfr hfr₂ hT L Lz G Gz θ reg hsol T hTab α β H hα hβ ht
      hθ hstep hd hg hA env₀ env' h h' hx hu hp Φ g γ hloc hΦ hfin (InBox d.nu s.N lb ub) (inBox_convex _ _ _ _) hu₀ hmin) hm hk

end

/-! ## Existence of the adjoint solution -/

/-- **C136** (adjoint solution) For an explicit model and steps that are small compared with the derivatives of its right-hand side, every
solution of the collocation equations extends to a solution of the collocation equations of the adjoint model with any given final
adjoint state. -/
theorem C136_adjoint_exists (fresh fresh' freshI freshI' : String → ℕ) (casadiPoints : ℕ → String → Except PyErr (List ℝ))
    (csFunction : List (MXExpr ℝ) → List (MXExpr ℝ) → Except PyErr (CsFn ℝ))
    (dae dae' : DaeObj ℝ) (t : List ℝ) (order : ℕ) (method : String) (tau : List ℝ) (F F' : CsFn ℝ) (rep : Bool) (s s' : Scheme ℝ)
    {n m l q : ℕ} {f : (ℕ → ℝ) → (ℕ → ℝ) → (ℕ → ℝ) → ℝ → ℕ → ℝ} {J B C : (ℕ → ℝ) → (ℕ → ℝ) → (ℕ → ℝ) → ℝ → ℕ → ℕ → ℝ}
    (hJ : IsJacobians n m l f J B C) (gq : Env ℝ → ℕ → ℝ) (hcs : IsCsFunction csFunction)
    (pre : SchemePre freshI casadiPoints csFunction dae t order method none (odeUD freshI n m l q (rhsU f) gq) (.sym (freshI "xdot") n)
      (odeRes freshI n (rhsU f)) tau F)
    (pre' : SchemePre freshI' casadiPoints csFunction dae' t order method none
      (odeUD freshI' (n + n) m l (m + l) (rhsUA n f J) (quadUA n m B C)) (.sym (freshI' "xdot") (n + n))
      (odeRes freshI' (n + n) (rhsUA n f J)) tau F')
    (hs : Scheme.new fresh freshI casadiPoints csFunction dae t order method none rep = .ok s)
    (hs' : Scheme.new fresh' freshI' casadiPoints csFunction dae' t order method none rep = .ok s') (hfr : DistinctSyms fresh')
    (L₁ θ : ℝ) (hL₁ : 0 ≤ L₁) (hcol : ∀ x u p τ, ∀ k < n, ∑ i ∈ Finset.range n, |J x u p τ i k| ≤ L₁)
    (T : ButcherTableau ℝ) (hTab : butcherTableuForCollocationPoints tau = .ok T) (α β H : ℝ)
    (hα : ∀ j < order, ∑ k ∈ Finset.range order, |T.A.e [j, k]| ≤ α) (hβ : ∑ k ∈ Finset.range order, |T.b.e [k]| ≤ β)
    (ht : ∀ n < t.length - 1, nd t n ≤ nd t (n + 1) ∧ nd t (n + 1) - nd t n ≤ H) (hθ : θ < 1) (hstep : L₁ * (H * (α + β)) ≤ θ)
    (env₀ : Env ℝ) (h : ∀ v ∈ s.eq.vals env₀, v = 0) (g : ℕ → ℝ) :
    ∃ env', (∀ v ∈ s'.eq.vals env', v = 0) ∧ (∀ k, ∀ i < n, s'.x.val env' i k = s.x.val env₀ i k) ∧
      (∀ i k, s'.u.val env' i k = s.u.val env₀ i k) ∧ (∀ i c, s'.p.val env' i c = s.p.val env₀ i c) ∧
      ∀ i, s'.x.val env' (n + i) s'.N = g i := by
  have b := pre.built hs
  have b' := pre'.built hs'
  have hpos := pre.pos
  have hbT : ∀ k < order, T.b.e [k] = wb tau k := by
    intro k hk
    rw [butcher_ok] at hTab; cases hTab
    simp only [NdArray.vec, List.headD_cons, wb]
    rw [nd_map_range _ (by rw [pre.len]; exact hk)]
  have hAT : ∀ i j, T.A.e [i, j] = wA tau i j := by
    intro i j
    rw [butcher_ok] at hTab; cases hTab
    rfl
  -- the linear equations of the adjoint states at the collocation points
  let Jc : ℕ → ℕ → ℕ → ℝ := fun c => J (fun i => s.X.val env₀ i c) (fun i => env₀ (fresh "u") i (c / order))
    (fun i => env₀ (fresh "P") i (if rep then c else 0)) (nd s.tc c)
  let G : ℕ → (ℕ → ℝ) → ℕ → ℝ := fun c ξ i => -∑ k ∈ Finset.range n, Jc c k i * ξ k
  have hG : ∀ c, ∀ ξ ξ' : ℕ → ℝ, ∀ δ, (∀ i < n, |ξ i - ξ' i| ≤ δ) → ∀ i < n, |G c ξ i - G c ξ' i| ≤ L₁ * δ := by
    intro c ξ ξ' δ hδ i hi
    have hδ0 : 0 ≤ δ := (abs_nonneg _).trans (hδ i hi)
    have e : G c ξ i - G c ξ' i = -∑ k ∈ Finset.range n, Jc c k i * (ξ k - ξ' k) := by
      simp only [G, mul_sub, Finset.sum_sub_distrib]
      ring
    rw [e, abs_neg]
    refine (Finset.abs_sum_le_sum_abs _ _).trans ?_
    refine le_trans ?_ (mul_le_mul_of_nonneg_right (hcol (fun i => s.X.val env₀ i c) (fun i => env₀ (fresh "u") i (c / order))
      (fun i => env₀ (fresh "P") i (if rep then c else 0)) (nd s.tc c) i hi) hδ0)
    rw [Finset.sum_mul]
    refine Finset.sum_le_sum fun k hk => ?_
    rw [abs_mul]
    exact mul_le_mul_of_nonneg_left (hδ k (Finset.mem_range.mp hk)) (abs_nonneg _)
  have hst : ∀ (r : ℕ) (ξ : ℕ → ℝ), ∃ κ : ℕ → ℕ → ℝ, r < t.length - 1 → ∀ i < n, ∀ j < order,
      κ i j = G (r * order + j) (stageState (fun j k => wA tau j k - wb tau k) order (nd t (r + 1) - nd t r) ξ κ j) i := by
    intro r ξ
    by_cases hr : r < t.length - 1
    · obtain ⟨κ, hκ⟩ := (stage_unique_solution n order (fun j k => wA tau j k - wb tau k) (nd t (r + 1) - nd t r) L₁ θ hL₁ hθ
        (fun j hj => by
          refine (mul_le_mul_of_nonneg_left ?_ hL₁).trans hstep
          have h0 := ht r hr
          rw [abs_of_nonneg (by linarith)]
          refine mul_le_mul h0.2 ?_ (Finset.sum_nonneg fun _ _ => abs_nonneg _) (by linarith)
          calc ∑ k ∈ Finset.range order, |wA tau j k - wb tau k| ≤ ∑ k ∈ Finset.range order, (|T.A.e [j, k]| + |T.b.e [k]|) :=
                Finset.sum_le_sum fun k hk => by
                  rw [hAT, hbT k (Finset.mem_range.mp hk)]
                  exact abs_sub _ _
            _ ≤ α + β := by
                rw [Finset.sum_add_distrib]
                exact add_le_add (hα j hj) hβ)
        (fun j => G (r * order + j)) (fun j _ => hG _) ξ).1
      exact ⟨κ, fun _ => hκ⟩
    · exact ⟨fun _ _ => 0, fun h => absurd h hr⟩
  choose κ hκ using hst
  -- the adjoint states, from the last grid point backwards
  let N := t.length - 1
  let ν : ℕ → ℕ → ℝ := fun r => Nat.rec g (fun r ξ i => ξ i - (nd t (N - 1 - r + 1) - nd t (N - 1 - r)) *
    ∑ j ∈ Finset.range order, κ (N - 1 - r) ξ i j * wb tau j) r
  have hν : ∀ r i, ν (r + 1) i = ν r i - (nd t (N - 1 - r + 1) - nd t (N - 1 - r)) * ∑ j ∈ Finset.range order, κ (N - 1 - r) (ν r) i j * wb tau j :=
    fun r i => rfl
  let lam : ℕ → ℕ → ℝ := fun r => ν (N - r)
  have hlam : ∀ r < N, ∀ i, lam (r + 1) i = lam r i + (nd t (r + 1) - nd t r) * ∑ j ∈ Finset.range order, κ r (lam (r + 1)) i j * wb tau j := by
    intro r hr i
    have e1 : N - r = N - (r + 1) + 1 := by omega
    have e2 : N - 1 - (N - (r + 1)) = r := by omega
    have := hν (N - (r + 1)) i
    rw [e2, ← e1] at this
    change lam r i = lam (r + 1) i - (nd t (r + 1) - nd t r) * ∑ j ∈ Finset.range order, κ r (lam (r + 1)) i j * wb tau j at this
    linarith
  let env' : Env ℝ := fun id i c =>
    if id = fresh' "x" then (if i < n then env₀ (fresh "x") i c else lam c (i - n)) else
    if id = fresh' "K" then (if i < n then env₀ (fresh "K") i c else κ (c / order) (lam (c / order + 1)) (i - n) (c % order)) else
    if id = fresh' "u" then env₀ (fresh "u") i c else if id = fresh' "P" then env₀ (fresh "P") i c else 0
  have ex : ∀ i c, env' (fresh' "x") i c = if i < n then env₀ (fresh "x") i c else lam c (i - n) := fun i c => if_pos rfl
  have ek : ∀ i c, env' (fresh' "K") i c = if i < n then env₀ (fresh "K") i c else κ (c / order) (lam (c / order + 1)) (i - n) (c % order) :=
    fun i c => by simp only [env', if_neg hfr.xK.symm, if_true]
  have eu : ∀ i c, env' (fresh' "u") i c = env₀ (fresh "u") i c := fun i c => by
    simp only [env', if_neg hfr.xu.symm, if_neg hfr.Ku.symm, if_true]
  have ep : ∀ i c, env' (fresh' "P") i c = env₀ (fresh "P") i c := fun i c => by
    simp only [env', if_neg hfr.xP.symm, if_neg hfr.KP.symm, if_neg hfr.uP.symm, if_true]
  have hp : ∀ i c, s'.p.val env' i c = s.p.val env₀ i c := fun i c => by
    rw [b.p, b'.p]
    exact ep i c
  obtain ⟨z1, z2, z3⟩ := (Scheme.eq_zero_iff pre b env₀).mp h
  have nx' : ∀ n m l q f g, (odeUD freshI' n m l q f g).nx = n := fun n m l q f g => by simp [DaeObj.nx, odeUD, MXExpr.numel, MXExpr.sym]
  have nx : ∀ n m l q f g, (odeUD freshI n m l q f g).nx = n := fun n m l q f g => by simp [DaeObj.nx, odeUD, MXExpr.numel, MXExpr.sym]
  have hX1 : ∀ r j, r < t.length - 1 → j < order → ∀ i < n, s'.X.val env' i (r * order + j) = s.X.val env₀ i (r * order + j) := by
    intro r j hr hj i hi
    rw [b.X _ i r j hr hj, b'.X _ i r j hr hj, ex, if_pos hi]
    refine congrArg₂ _ rfl (congrArg₂ _ rfl (Finset.sum_congr rfl fun k hk => ?_))
    rw [ek, if_pos hi]
  have hX2 : ∀ r j, r < t.length - 1 → j < order → ∀ i < n, s'.X.val env' (n + i) (r * order + j) =
      stageState (fun j k => wA tau j k - wb tau k) order (nd t (r + 1) - nd t r) (lam (r + 1)) (κ r (lam (r + 1))) j i := by
    intro r j hr hj i hi
    rw [b'.X _ (n + i) r j hr hj, ex, if_neg (by omega), Nat.add_sub_cancel_left, stageState, hlam r hr]
    simp only [mul_sub, Finset.sum_sub_distrib]
    rw [Finset.sum_congr rfl fun k (hk : k ∈ Finset.range order) => by
      rw [ek, if_neg (by omega), Nat.add_sub_cancel_left, div_block (Finset.mem_range.mp hk), mod_block (Finset.mem_range.mp hk)]]
    ring
  refine ⟨env', (Scheme.eq_zero_iff pre' b' env').mpr ⟨?_, ?_, ?_⟩, fun k i hi => ?_, fun i k => ?_, hp, fun i => ?_⟩
  · intro c hc
    obtain ⟨r, j, hr, hj, rfl⟩ : ∃ r j, r < t.length - 1 ∧ j < order ∧ c = r * order + j :=
      ⟨c / order, c % order, Nat.div_lt_of_lt_mul (by rwa [Nat.mul_comm]), Nat.mod_lt _ hpos, (Nat.div_add_mod' c order).symm⟩
    obtain ⟨e, a⟩ := exists_atPoint hcs pre b.toCore env₀ hc
    obtain ⟨e', a'⟩ := exists_atPoint hcs pre' b'.toCore env' hc
    have r1 := (residual_iff fresh freshI casadiPoints csFunction dae t order method none _ _ _ tau F rep s hcs pre b hc a).mp (z1 _ hc)
    rw [ode_residual] at r1
    have v := a.vals pre b.toCore
    have v' := a'.vals pre' b'.toCore
    rw [div_block hj] at v v'
    have htc : nd s'.tc (r * order + j) = nd s.tc (r * order + j) := by rw [b.tc r j hr hj, b'.tc r j hr hj]
    have vx : ∀ i < n, e' 0 i 0 = s.X.val env₀ i (r * order + j) := fun i hi => (v'.x i (show i < n + n by omega)).trans (hX1 r j hr hj i hi)
    have vu : ∀ i < m, e' 2 i 0 = env₀ (fresh "u") i r := fun i hi => (v'.u i hi).trans (eu i r)
    have vp : ∀ i < l, e' 3 i 0 = env₀ (fresh "P") i (if rep then r * order + j else 0) := fun i hi => (v'.p i hi).trans (ep i _)
    have vt : e' 4 0 0 = nd s.tc (r * order + j) := v'.t.trans htc
    have vl : ∀ i < n, e' 0 (n + i) 0 =
        stageState (fun j k => wA tau j k - wb tau k) order (nd t (r + 1) - nd t r) (lam (r + 1)) (κ r (lam (r + 1))) j i :=
      fun i hi => (v'.x (n + i) (show n + i < n + n by omega)).trans (hX2 r j hr hj i hi)
    refine (residual_iff fresh' freshI' casadiPoints csFunction dae' t order method none _ _ _ tau F' rep s' hcs pre' b' hc a').mpr
      ((ode_residual _ _ _ _).mpr fun i hi => ?_)
    have hk := v'.xdot i hi
    change e' (freshI' "xdot") i 0 = env' (fresh' "K") i (r * order + j) at hk
    rw [hk, ek]
    by_cases hin : i < n
    · rw [if_pos hin, rhsUA, if_pos hin]
      have h1 := v.xdot i hin
      change e (freshI "xdot") i 0 = env₀ (fresh "K") i (r * order + j) at h1
      rw [← h1, r1 i hin, rhsU, vt, ← (show e 4 0 0 = nd s.tc (r * order + j) from v.t)]
      exact ((hJ.congr _ _ _ _ _ _ _ (fun k hk => (v.x k hk).trans (vx k hk).symm) (fun k hk => (v.u k hk).trans (vu k hk).symm)
        (fun k hk => (v.p k hk).trans (vp k hk).symm)) i hin).1
    · obtain ⟨i, rfl⟩ : ∃ i', i = n + i' := ⟨i - n, by omega⟩
      have hi' : i < n := by omega
      rw [if_neg hin, rhsUA, if_neg hin, Nat.add_sub_cancel_left, div_block hj, mod_block hj, hκ r (lam (r + 1)) hr i hi' j hj]
      refine congrArg Neg.neg (Finset.sum_congr rfl fun k hk => ?_)
      have hk' := Finset.mem_range.mp hk
      rw [vl k hk', vt]
      refine congrArg₂ _ ?_ rfl
      have := ((hJ.congr _ _ _ _ _ _ (nd s.tc (r * order + j)) vx vu vp) k hk').2.1 i hi'
      rw [this]
      simp only [Jc, div_block hj]
  · intro r hr i hi
    rw [nx'] at hi
    rw [b'.cont env' i r hr, sub_eq_zero, ex, ex]
    by_cases hin : i < n
    · have := z2 r hr i (by rw [nx]; exact hin)
      rw [b.cont env₀ i r hr, sub_eq_zero] at this
      rw [if_pos hin, if_pos hin, ← this]
      refine congrArg₂ _ rfl (congrArg₂ _ rfl (Finset.sum_congr rfl fun k hk => ?_))
      rw [ek, if_pos hin]
    · rw [if_neg hin, if_neg hin, hlam r hr]
      refine congrArg₂ _ rfl (congrArg₂ _ rfl (Finset.sum_congr rfl fun k hk => ?_))
      rw [ek, if_neg hin, div_block (Finset.mem_range.mp hk), mod_block (Finset.mem_range.mp hk)]
  · intro hr c hc i hi
    rw [hp, hp]
    exact z3 hr c hc i hi
  · rw [b.x, b'.x]
    exact (ex i k).trans (if_pos hi)
  · rw [b.u, b'.u]
    exact eu i k
  · rw [b'.x, b'.N_eq]
    refine (ex _ _).trans ?_
    rw [if_neg (by omega), Nat.add_sub_cancel_left]
    have : lam N = ν 0 := congrArg ν (Nat.sub_self N)
    exact congrFun this i

theorem odeU_solvable (freshI : String → ℕ) {n m l q : ℕ} {f : (ℕ → ℝ) → (ℕ → ℝ) → (ℕ → ℝ) → ℝ → ℕ → ℝ}
    {J B C : (ℕ → ℝ) → (ℕ → ℝ) → (ℕ → ℝ) → ℝ → ℕ → ℕ → ℝ} (hJ : IsJacobians n m l f J B C) (gq : Env ℝ → ℕ → ℝ) :
    Solvable (odeUD freshI n m l q (rhsU f) gq) (.sym (freshI "xdot") n) (odeRes freshI n (rhsU f)) := by
  intro ξ u p τ q
  refine ⟨f ξ u p τ, fun _ => 0, fun e v => (ode_residual _ _ _ _).mpr fun i hi => ?_⟩
  refine (v.xdot i hi).trans ?_
  rw [rhsU, show e 4 0 0 = τ from v.t]
  exact ((hJ.congr _ _ _ _ _ _ _ (fun k hk => v.x k hk) (fun k hk => v.u k hk) (fun k hk => v.p k hk)) i hi).1.symm

theorem odeU_regular (freshI : String → ℕ) {n m l q : ℕ} {f : (ℕ → ℝ) → (ℕ → ℝ) → (ℕ → ℝ) → ℝ → ℕ → ℝ}
    {J B C : (ℕ → ℝ) → (ℕ → ℝ) → (ℕ → ℝ) → ℝ → ℕ → ℕ → ℝ} (hJ : IsJacobians n m l f J B C) (gq : Env ℝ → ℕ → ℝ) {L : ℝ} (hL : 0 ≤ L)
    (hLip : ∀ x x' u p τ δ, (∀ k < n, |x k - x' k| ≤ δ) → ∀ i < n, |f x u p τ i - f x' u p τ i| ≤ L * δ) :
    RegularDae (odeUD freshI n m l q (rhsU f) gq) (.sym (freshI "xdot") n) (odeRes freshI n (rhsU f)) L 0 1 0 := by
  refine ⟨⟨hL, zero_le_one⟩, fun e e' hu hp ht _ δ ρ _ _ hδ hρ => ⟨fun i hi => ?_, fun k hk => absurd hk (Nat.not_lt_zero _)⟩⟩
  have h1 := hLip (fun k => e 0 k 0) (fun k => e' 0 k 0) (fun k => e 2 k 0) (fun k => e 3 k 0) (e 4 0 0) δ hδ i hi
  have hi : i < n := hi
  have h2 : |(odeRes freshI n (rhsU f)).val e i 0 - (odeRes freshI n (rhsU f)).val e' i 0| ≤ ρ := hρ i hi
  have h3 : rhsU f e' i = f (fun k => e' 0 k 0) (fun k => e 2 k 0) (fun k => e 3 k 0) (e 4 0 0) i := by
    rw [rhsU, show e' 4 0 0 = e 4 0 0 from ht.symm]
    exact ((hJ.congr _ _ _ _ _ _ _ (fun k hk => rfl) (fun k hk => (hu k hk).symm) (fun k hk => (hp k hk).symm)) i hi).1
  have h4 : rhsU f e i = f (fun k => e 0 k 0) (fun k => e 2 k 0) (fun k => e 3 k 0) (e 4 0 0) i := rfl
  rw [← h3, ← h4] at h1
  simp only [odeRes, hi, if_true] at h2
  change |e (freshI "xdot") i 0 - e' (freshI "xdot") i 0| ≤ L * δ + 1 * ρ
  rw [abs_le] at h1 h2 ⊢
  constructor <;> linarith [h1.1, h1.2, h2.1, h2.2]

/-- **C136** (explicit models) The discrete minimum principle: for inputs that minimise the cost of the collocation equations of
`x' = f(x, u, p, t)`, with Gauss nodes and small steps, there is a solution of the collocation equations of the adjoint model
`λ' = -J' λ`, whose final value is the gradient of the cost, such that the integrals of `B' λ` over the intervals satisfy the sign
conditions. -/
theorem C136_explicit (fresh fresh' freshI freshI' fresh₂ : String → ℕ) (casadiPoints : ℕ → String → Except PyErr (List ℝ))
    (csFunction : List (MXExpr ℝ) → List (MXExpr ℝ) → Except PyErr (CsFn ℝ))
    (dae dae' dae₂ : DaeObj ℝ) (t : List ℝ) (order : ℕ) (method : String) (tau : List ℝ) (F F' F₂ : CsFn ℝ) (rep : Bool) (s s' : Scheme ℝ)
    {n m l : ℕ} {f : (ℕ → ℝ) → (ℕ → ℝ) → (ℕ → ℝ) → ℝ → ℕ → ℝ} {J B C : (ℕ → ℝ) → (ℕ → ℝ) → (ℕ → ℝ) → ℝ → ℕ → ℕ → ℝ}
    (hJ : IsJacobians n m l f J B C) (gq gq₂ : Env ℝ → ℕ → ℝ) (hcs : IsCsFunction csFunction)
    (pre : SchemePre freshI casadiPoints csFunction dae t order method none (odeUD freshI n m l 0 (rhsU f) gq) (.sym (freshI "xdot") n)
      (odeRes freshI n (rhsU f)) tau F)
    (pre' : SchemePre freshI casadiPoints csFunction dae' t order method none
      (odeUD freshI (n + n) m l (m + l) (rhsUA n f J) (quadUA n m B C)) (.sym (freshI "xdot") (n + n))
      (odeRes freshI (n + n) (rhsUA n f J)) tau F')
    (pre₂ : SchemePre freshI casadiPoints csFunction dae₂ t order method none
      (odeUD freshI (n + n) (m + m) (l + l) 0 (rhsUT n m l f J B C) gq₂) (.sym (freshI "xdot") (n + n))
      (odeRes freshI (n + n) (rhsUT n m l f J B C)) tau F₂)
    (hs : Scheme.new fresh freshI casadiPoints csFunction dae t order method none rep = .ok s)
    (hs' : Scheme.new fresh' freshI casadiPoints csFunction dae' t order method none rep = .ok s')
    (hfr : DistinctSyms fresh) (hfr' : DistinctSyms fresh') (hfr₂ : DistinctSyms fresh₂)
    (L L₁ θ : ℝ) (hL : 0 ≤ L) (hL₁ : 0 ≤ L₁)
    (hLip : ∀ x x' u p τ δ, (∀ k < n, |x k - x' k| ≤ δ) → ∀ i < n, |f x u p τ i - f x' u p τ i| ≤ L * δ)
    (hcol : ∀ x u p τ, ∀ k < n, ∑ i ∈ Finset.range n, |J x u p τ i k| ≤ L₁)
    (T : ButcherTableau ℝ) (hTab : butcherTableuForCollocationPoints tau = .ok T) (α β H : ℝ)
    (hα : ∀ j < order, ∑ k ∈ Finset.range order, |T.A.e [j, k]| ≤ α) (hβ : ∑ k ∈ Finset.range order, |T.b.e [k]| ≤ β)
    (ht : ∀ n < t.length - 1, nd t n ≤ nd t (n + 1) ∧ nd t (n + 1) - nd t n ≤ H) (hθ : θ < 1) (hstep : L * (H * α) ≤ θ)
    (hstep₁ : L₁ * (H * (α + β)) ≤ θ) (hd : tau.Nodup) (hg : IsGauss tau)
    (env₀ : Env ℝ) (h : ∀ v ∈ s.eq.vals env₀, v = 0)
    (Φ : (ℕ → ℝ) → (ℕ → ℕ → ℝ) → ℝ) (g : ℕ → ℝ) (γ : ℕ → ℕ → ℝ)
    (hloc : ∀ (x y : ℕ → ℝ) (u : ℕ → ℕ → ℝ), (∀ i < n, x i = y i) → Φ x u = Φ y u)
    (hΦ : CostGradient n m s.N Φ (fun i => s.x.val env₀ i s.N) (s.u.val env₀) g γ)
    (lb ub : ℕ → ℕ → EReal) (hu₀ : s.u.val env₀ ∈ InBox m s.N lb ub)
    (hmin : ∀ env, (∀ v ∈ s.eq.vals env, v = 0) → (∀ i < n, s.x.val env i 0 = s.x.val env₀ i 0) →
      (∀ c < (if rep then s.N * s.M else 1), ∀ i < l, s.p.val env i c = s.p.val env₀ i c) → s.u.val env ∈ InBox m s.N lb ub →
      Φ (fun i => s.x.val env₀ i s.N) (s.u.val env₀) ≤ Φ (fun i => s.x.val env i s.N) (s.u.val env)) :
    ∃ env', (∀ v ∈ s'.eq.vals env', v = 0) ∧ (∀ k, ∀ i < n, s'.x.val env' i k = s.x.val env₀ i k) ∧
      (∀ i k, s'.u.val env' i k = s.u.val env₀ i k) ∧ (∀ i c, s'.p.val env' i c = s.p.val env₀ i c) ∧
      (∀ i, s'.x.val env' (n + i) s'.N = g i) ∧ ∀ r < s.N, ∀ k < m,
      ((s.u.val env₀ k r : EReal) < ub k r → 0 ≤ s'.q.val env' k (r + 1) - s'.q.val env' k r + γ k r) ∧
      (lb k r < (s.u.val env₀ k r : EReal) → s'.q.val env' k (r + 1) - s'.q.val env' k r + γ k r ≤ 0) := by
  obtain ⟨env', h', hx, hu, hp, hfin⟩ := C136_adjoint_exists fresh fresh' freshI freshI casadiPoints csFunction dae dae' t order method tau
    F F' rep s s' hJ gq hcs pre pre' hs hs' hfr' L₁ θ hL₁ hcol T hTab α β H hα hβ ht hθ hstep₁ env₀ h g
  refine ⟨env', h', hx, hu, hp, hfin, ?_⟩
  have nx : (odeUD freshI n m l 0 (rhsU f) gq).nx = n := by simp [DaeObj.nx, odeUD, MXExpr.numel, MXExpr.sym]
  have nu : (odeUD freshI n m l 0 (rhsU f) gq).nu = m := by simp [DaeObj.nu, odeUD, MXExpr.numel, MXExpr.sym]
  have np : (odeUD freshI n m l 0 (rhsU f) gq).np = l := by simp [DaeObj.np, odeUD, MXExpr.numel, MXExpr.sym]
  have hN : s'.N = s.N := by rw [(pre.built hs).N_eq, (pre'.built hs').N_eq]
  have key := C136_bounds fresh fresh' freshI freshI casadiPoints csFunction dae dae' t order method none _ _ _ _ _ _
    tau F F' rep s s' fresh₂ freshI dae₂ _ _ _ F₂ hcs pre pre' pre₂ hs hs' hfr hfr₂ (linearTangentU hJ freshI gq gq₂) L 0 1 0 θ
    (odeU_regular freshI hJ gq hL hLip) (odeU_solvable freshI hJ gq) T hTab α β H hα hβ ht hθ hstep hd hg (C134_law hJ freshI 0 gq)
    env₀ env' h h' (fun i hi => (hx 0 i (by rwa [nx] at hi)).symm) (fun r _ i _ => hu i r) (fun c _ i _ => (hp i c).symm) Φ g γ
    (by rw [nx]; exact hloc) (by rw [nx, nu]; exact hΦ) (fun i hi => by rw [nx, ← hN]; exact hfin i) lb ub (by rw [nu]; exact hu₀)
    (by rw [nx, nu, np]; exact hmin)
  rw [nu] at key
  exact key

/-! ## Non-vacuity -/

/-- The model `x' = u`. -/
def steerF : (ℕ → ℝ) → (ℕ → ℝ) → (ℕ → ℝ) → ℝ → ℕ → ℝ := fun _ u _ _ _ => u 0

theorem steer_jacobians : IsJacobians 1 1 0 steerF (fun _ _ _ _ _ _ => 0) (fun _ _ _ _ _ _ => 1) (fun _ _ _ _ _ _ => 0) := by
  refine ⟨fun x u p x' u' p' t hx hu hp i hi => ?_, fun x u p x' u' p' t hx hu hp i hi => ?_⟩
  · simpa [steerF] using hu 0 (by omega)
  · simp [steerF, hu 0 (by omega)]

/-- A step of `x' = u` from 1 with the input `c`. -/
def steerEnv (c : ℝ) : Env ℝ := fun id _ j => if id = 0 then (if j = 0 then 1 else 1 + c) else if id = 1 ∨ id = 3 then c else 0

/-- The same step with the constant adjoint state `2 (1 + c)`. -/
def steerAdj (c : ℝ) : Env ℝ := fun id i j =>
  if id = 0 then (if i = 0 then (if j = 0 then 1 else 1 + c) else 2 * (1 + c)) else if id = 1 then (if i = 0 then c else 0)
  else if id = 3 then c else 0

theorem steer_cost (c : ℝ) : CostGradient 1 1 1 (fun x u => x 0 ^ 2 + u 0 0 ^ 2) (fun _ => 1 + c) (fun _ _ => c)
    (fun _ => 2 * (1 + c)) (fun _ _ => 2 * c) := by
  intro y v hy hv dy dv
  have h1 := (dy 0 Nat.one_pos).hasDerivAt.fun_pow 2
  have h2 := (dv 0 Nat.one_pos 0 Nat.one_pos).hasDerivAt.fun_pow 2
  refine (h1.fun_add h2).congr_deriv ?_
  rw [hy 0 Nat.one_pos, hv 0 Nat.one_pos 0 Nat.one_pos]
  simp

/-- C136 for one step of the midpoint rule for `x' = u` from 1 and the cost `x(1)² + u²`: only the input -1/2 can be optimal. -/
example (freshI : String → ℕ) (hI : 6 ≤ freshI "xdot") (c : ℝ) : ∃ s,
    Scheme.new exFresh freshI (fun _ _ => .ok [1 / 2]) idealCsFunction (odeUO 1 1 0 0 (rhsU steerF) fun _ _ => 0) [0, 1] 1 "legendre" none =
      .ok s ∧ (∀ v ∈ s.eq.vals (steerEnv c), v = 0) ∧
    ((∀ env, (∀ v ∈ s.eq.vals env, v = 0) → s.x.val env 0 0 = 1 →
      (1 + c) ^ 2 + c ^ 2 ≤ s.x.val env 0 1 ^ 2 + s.u.val env 0 0 ^ 2) → c = -1 / 2) := by
  obtain ⟨F, pre⟩ := odeU_pre freshI hI 1 1 0 0 (rhsU steerF) (fun _ _ => 0) (fun e e' hx hu hp ht => ⟨fun i hi => by
    simp [rhsU, steerF, hu 0 (by omega)], fun _ _ => rfl⟩) rfl [0, 1] [1 / 2] (by simp) (by simp)
  obtain ⟨F', pre'⟩ := odeU_pre freshI hI (1 + 1) 1 0 (1 + 0) (rhsUA 1 steerF fun _ _ _ _ _ _ => 0)
    (quadUA 1 1 (fun _ _ _ _ _ _ => 1) fun _ _ _ _ _ _ => 0) (fun e e' hx hu hp ht => by
      have h1 := hx 1 (by omega)
      have h2 := hu 0 (by omega)
      refine ⟨fun i hi => ?_, fun i hi => ?_⟩
      · interval_cases i <;> simp [rhsUA, steerF, h2]
      · interval_cases i; simp [quadUA, h1]) rfl [0, 1] [1 / 2] (by simp) (by simp)
  obtain ⟨F₂, pre₂⟩ := odeU_pre freshI hI (1 + 1) (1 + 1) (0 + 0) 0
    (rhsUT 1 1 0 steerF (fun _ _ _ _ _ _ => 0) (fun _ _ _ _ _ _ => 1) fun _ _ _ _ _ _ => 0) (fun _ _ => 0)
    (fun e e' hx hu hp ht => by
      have h4 := hu 0 (by omega)
      have h5 := hu 1 (by omega)
      refine ⟨fun i hi => ?_, fun i hi => rfl⟩
      interval_cases i <;> simp [rhsUT, steerF, h4, h5]) rfl [0, 1] [1 / 2] (by simp) (by simp)
  obtain ⟨s, hs, b⟩ := Scheme.new_built (fresh := exFresh) false pre
  obtain ⟨s', hs', b'⟩ := Scheme.new_built (fresh := exFresh) false pre'
  have h := (odeU_step freshI 1 1 0 0 _ _ F pre s hs (steerEnv c) (fun e hx hu hp ht i hi => by
    have h2 := hu 0 (by omega)
    simp [steerEnv] at h2
    simp [rhsU, steerF, steerEnv, h2]) (fun i hi => by simp [steerEnv])).1
  obtain ⟨h', e, ex, -, -, eq⟩ := odeU_step freshI (1 + 1) 1 0 (1 + 0) _ _ F' pre' s' hs' (steerAdj c) (fun e hx hu hp ht i hi => by
      have h2 := hu 0 (by omega)
      simp [steerAdj] at h2
      interval_cases i
      · simp [rhsUA, steerF, steerAdj, h2]
      · simp [rhsUA, steerAdj]) (fun i hi => by interval_cases i <;> simp [steerAdj])
  refine ⟨s, hs, h, fun hmin => ?_⟩
  obtain ⟨T, hT, hA0, hB0⟩ := half_tableau
  have hN : s.N = 1 := b.N_eq
  have hsx : ∀ env i k, s.x.val env i k = env 0 i k := fun env i k => by rw [b.x]; rfl
  have hsu : ∀ env i k, s.u.val env i k = env 3 i k := fun env i k => by rw [b.u]; rfl
  have hsx' : ∀ env i k, s'.x.val env i k = env 0 i k := fun env i k => by rw [b'.x]; rfl
  have hsu' : ∀ env i k, s'.u.val env i k = env 3 i k := fun env i k => by rw [b'.u]; rfl
  have e1 : (fun i => s.x.val (steerEnv c) i s.N) = fun _ => 1 + c := funext fun i => by rw [hsx, hN]; simp [steerEnv]
  have e2 : s.u.val (steerEnv c) = fun _ _ => c := funext fun i => funext fun k => by rw [hsu]; simp [steerEnv]
  have key := C136_bounds exFresh exFresh freshI freshI _ _ _ _ _ _ _ _ _ _ _ _ _ _ _ F F' false s s' exFresh freshI _ _ _ _ F₂
    idealCsFunction_spec pre pre' pre₂ hs hs' (by constructor <;> decide) (by constructor <;> decide)
    (linearTangentU steer_jacobians freshI (fun _ _ => 0) fun _ _ => 0) 0 0 1 0 (1 / 2)
    (odeU_regular freshI steer_jacobians _ le_rfl fun x x' u p τ δ hδ i hi => by simp [steerF]) (odeU_solvable freshI steer_jacobians _)
    T hT (1 / 2) 1 1 (fun j hj => by
      obtain rfl : j = 0 := by simp at hj; omega
      simp [hA0]) (by simp [hB0]) (fun n hn => by
        obtain rfl : n = 0 := by simpa using hn
        norm_num [nd]) (by norm_num) (by norm_num) (by simp) isGauss_midpoint_real
    (C134_law steer_jacobians freshI 0 fun _ _ => 0) (steerEnv c) (steerAdj c) h h'
    (fun i hi => by
      obtain rfl : i = 0 := by change i < 1 at hi; omega
      rw [hsx, hsx']; simp [steerEnv, steerAdj])
    (fun n hn i hi => by rw [hsu, hsu']; simp [steerEnv, steerAdj]) (fun c hc i hi => absurd hi (Nat.not_lt_zero _))
    (fun x u => x 0 ^ 2 + u 0 0 ^ 2) (fun _ => 2 * (1 + c)) (fun _ _ => 2 * c) (fun x y u hxy => by
      have := hxy 0 Nat.one_pos
      simp only [this])
    (by rw [e1, e2, hN]; exact steer_cost c)
    (fun i hi => by
      obtain rfl : i = 0 := by change i < 1 at hi; omega
      rw [hsx', hN]
      change steerAdj c 0 1 1 = _
      simp [steerAdj])
    (fun _ _ => ⊥) (fun _ _ => ⊤) (fun _ _ _ _ => ⟨bot_le, le_top⟩) (fun env he hx0 _ _ => by
      rw [e1, e2, hN]
      exact hmin env he ((hx0 0 Nat.one_pos).trans (by rw [hsx]; simp [steerEnv])))
    0 (by rw [hN]; exact Nat.one_pos) 0 Nat.one_pos
  have hq1 : s'.q.val (steerAdj c) 0 1 = 2 * (1 + c) := by
    rw [eq 0 (by omega)]
    have := ex 1 (by omega)
    simp [steerAdj] at this
    simp [quadUA, this]
  have hq0 : s'.q.val (steerAdj c) 0 0 = 0 := b'.q_zero _ _
  simp only [zero_add, hq0, hq1] at key
  have k1 := key.1 (EReal.coe_lt_top _)
  have k2 := key.2 (EReal.bot_lt_coe _)
  linarith

/-- C136 (explicit models) for two steps of the midpoint rule for the pendulum with a bounded torque, which is to stop at 0: where the
torque is strictly between the bounds, the integral of the second adjoint state vanishes. -/
example (freshI : String → ℕ) (hI : 6 ≤ freshI "xdot") : ∃ s s',
    Scheme.new exFresh freshI (fun _ _ => .ok [1 / 2]) idealCsFunction (odeUO 2 1 0 0 (rhsU torqueF) fun _ _ => 0) [0, 1 / 2, 1] 1
      "legendre" none = .ok s ∧
    Scheme.new exFresh freshI (fun _ _ => .ok [1 / 2]) idealCsFunction (odeUO (2 + 2) 1 0 (1 + 0) (rhsUA 2 torqueF torqueJ)
      (quadUA 2 1 torqueB fun _ _ _ _ _ _ => 0)) [0, 1 / 2, 1] 1 "legendre" none = .ok s' ∧
    ∀ env₀, (∀ v ∈ s.eq.vals env₀, v = 0) → (∀ m < 2, |s.u.val env₀ 0 m| ≤ 1) →
      (∀ env, (∀ v ∈ s.eq.vals env, v = 0) → (∀ i < 2, s.x.val env i 0 = s.x.val env₀ i 0) → (∀ m < 2, |s.u.val env 0 m| ≤ 1) →
        s.x.val env₀ 0 2 ^ 2 + s.x.val env₀ 1 2 ^ 2 ≤ s.x.val env 0 2 ^ 2 + s.x.val env 1 2 ^ 2) →
      ∃ env', (∀ v ∈ s'.eq.vals env', v = 0) ∧ s'.x.val env' 2 2 = 2 * s.x.val env₀ 0 2 ∧ s'.x.val env' 3 2 = 2 * s.x.val env₀ 1 2 ∧
        ∀ m < 2, |s.u.val env₀ 0 m| < 1 → s'.q.val env' 0 (m + 1) = s'.q.val env' 0 m := by
  obtain ⟨F, pre⟩ := odeU_pre freshI hI 2 1 0 0 (rhsU torqueF) (fun _ _ => 0) (fun e e' hx hu hp ht => ⟨fun i hi =>
    (torque_jacobians.congr _ _ _ _ _ _ _ hx hu hp i hi).1.trans (by rw [rhsU, ht]), fun _ _ => rfl⟩) rfl [0, 1 / 2, 1] [1 / 2] (by simp)
    (by simp)
  obtain ⟨F', pre'⟩ := odeU_pre freshI hI (2 + 2) 1 0 (1 + 0) (rhsUA 2 torqueF torqueJ) (quadUA 2 1 torqueB fun _ _ _ _ _ _ => 0)
    (fun e e' hx hu hp ht => by
      have h0 := hx 0 (by omega)
      have h1 := hx 1 (by omega)
      have h2 := hx 2 (by omega)
      have h3 := hx 3 (by omega)
      have h4 := hu 0 (by omega)
      refine ⟨fun i hi => ?_, fun i hi => ?_⟩
      · interval_cases i <;> simp [rhsUA, torqueF, torqueJ, Finset.sum_range_succ, h0, h1, h2, h3, h4]
      · interval_cases i; simp [quadUA, torqueB, Finset.sum_range_succ, h3]) rfl [0, 1 / 2, 1] [1 / 2] (by simp) (by simp)
  obtain ⟨F₂, pre₂⟩ := odeU_pre freshI hI (2 + 2) (1 + 1) (0 + 0) 0 (rhsUT 2 1 0 torqueF torqueJ torqueB fun _ _ _ _ _ _ => 0) (fun _ _ => 0)
    (fun e e' hx hu hp ht => by
      have h0 := hx 0 (by omega)
      have h1 := hx 1 (by omega)
      have h2 := hx 2 (by omega)
      have h3 := hx 3 (by omega)
      have h4 := hu 0 (by omega)
      have h5 := hu 1 (by omega)
      refine ⟨fun i hi => ?_, fun i hi => rfl⟩
      interval_cases i <;> simp [rhsUT, torqueF, torqueJ, torqueB, Finset.sum_range_succ, h0, h1, h2, h3, h4, h5]) rfl [0, 1 / 2, 1] [1 / 2]
    (by simp) (by simp)
  obtain ⟨s, hs, b⟩ := Scheme.new_built (fresh := exFresh) false pre
  obtain ⟨s', hs', b'⟩ := Scheme.new_built (fresh := exFresh) false pre'
  refine ⟨s, s', hs, hs', fun env₀ h hu₀ hmin => ?_⟩
  obtain ⟨T, hT, hA0, hB0⟩ := half_tableau
  have hN : s.N = 2 := b.N_eq
  have hN' : s'.N = 2 := b'.N_eq
  have box : ∀ w : ℕ → ℕ → ℝ, w ∈ InBox 1 2 (fun _ _ => ((-1 : ℝ) : EReal)) (fun _ _ => ((1 : ℝ) : EReal)) ↔ ∀ m < 2, |w 0 m| ≤ 1 := by
    intro w
    constructor
    · intro hw m hm
      have := hw m hm 0 Nat.one_pos
      rw [EReal.coe_le_coe_iff, EReal.coe_le_coe_iff] at this
      exact abs_le.mpr this
    · intro hw m hm k hk
      obtain rfl : k = 0 := by omega
      rw [EReal.coe_le_coe_iff, EReal.coe_le_coe_iff]
      exact abs_le.mp (hw m hm)
  obtain ⟨env', h', -, -, -, hfin, key⟩ := C136_explicit exFresh exFresh freshI freshI exFresh _ _ _ _ _ _ _ _ _ F F' F₂ false s s'
    torque_jacobians _ _ idealCsFunction_spec pre pre' pre₂ hs hs' (by constructor <;> decide) (by constructor <;> decide)
    (by constructor <;> decide) 1 1 (3 / 4) zero_le_one zero_le_one
    (fun x x' u p τ δ hδ i hi => by
      have h0 := hδ 0 (by omega)
      have h1 := hδ 1 (by omega)
      have h3 := (Real.abs_sin_sub_sin_le (x 0) (x' 0)).trans h0
      rw [one_mul]
      interval_cases i
      · simpa [torqueF] using h1
      · simp only [torqueF, one_ne_zero, if_false]
        rw [abs_le] at h3 ⊢
        constructor <;> linarith [h3.1, h3.2])
    (fun x u p τ k hk => by
      interval_cases k <;> simp [torqueJ, Finset.sum_range_succ, Real.abs_cos_le_one])
    T hT (1 / 2) 1 (1 / 2) (fun j hj => by
      obtain rfl : j = 0 := by simp at hj; omega
      simp [hA0]) (by simp [hB0]) (fun n hn => by
        have hn : n < 2 := by simpa using hn
        interval_cases n <;> norm_num [nd]) (by norm_num) (by norm_num) (by norm_num) (by simp) isGauss_midpoint_real env₀ h
    (fun x _ => x 0 ^ 2 + x 1 ^ 2) (fun i => 2 * s.x.val env₀ i 2) (fun _ _ => 0)
    (fun x y u hxy => by simp only [hxy 0 (by omega), hxy 1 (by omega)])
    (by
      intro y v hy hv dy dv
      have h1 := (dy 0 (by omega)).hasDerivAt.fun_pow 2
      have h2 := (dy 1 (by omega)).hasDerivAt.fun_pow 2
      refine (h1.fun_add h2).congr_deriv ?_
      rw [hy 0 (by omega), hy 1 (by omega), hN]
      simp [Finset.sum_range_succ])
    (fun _ _ => ((-1 : ℝ) : EReal)) (fun _ _ => ((1 : ℝ) : EReal)) (by rw [hN]; exact (box _).mpr hu₀)
    (fun env he hx _ hu => by
      rw [hN] at hu ⊢
      exact hmin env he hx ((box _).mp hu))
  rw [hN'] at hfin
  rw [hN] at key
  refine ⟨env', h', hfin 0, hfin 1, fun m hm hlt => ?_⟩
  obtain ⟨k1, k2⟩ := key m hm 0 Nat.one_pos
  rw [abs_lt] at hlt
  have k1 := k1 (EReal.coe_lt_coe_iff.mpr hlt.2)
  have k2 := k2 (EReal.coe_lt_coe_iff.mpr hlt.1)
  linarith

end CE
