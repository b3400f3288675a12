import Verif.Num.LemOrder
import Verif.Num.PropsIntegrator
import Verif.Num.PropsStable
import Mathlib.Topology.Algebra.Module.FiniteDimension
import Mathlib.LinearAlgebra.Matrix.ToLin
import Mathlib.Analysis.Calculus.Deriv.Prod
import Mathlib.Analysis.Complex.ExponentialBounds

/-!
# Property C87: order of the collocation method for linear models
-/

open Polynomial Set

namespace CE

/-- The nodes are those of a quadrature formula on [0, 1] that is exact for all polynomials of degree less than their number plus
`m`: their node polynomial is orthogonal to all polynomials of degree less than `m`. -/
def NodesOrder {K : Type} [Field K] (tau : List K) (m : ℕ) : Prop :=
  ∀ q P : K[X], q.degree < m → derivative P = (tau.map fun c => X - C c).prod * q → P.eval 1 - P.eval 0 = 0

/-- Any nodes: order at least `len(tau)`; Radau nodes: `2*len(tau)-1`; Gauss nodes: `2*len(tau)`. -/
theorem nodesOrder_zero {K : Type} [Field K] [CharZero K] (tau : List K) : NodesOrder tau 0 := by
  intro q P hq hP
  have h0 : q = 0 := by
    by_contra h
    exact absurd hq (not_lt.mpr (by simpa using zero_le_degree_iff.mpr h))
  rw [h0, mul_zero] at hP
  have := natDegree_eq_zero_of_derivative_eq_zero hP
  rw [eq_C_of_natDegree_eq_zero this]
  simp

theorem weightsExact {K : Type} [Field K] [DecidableEq K] [CharZero K] {tau : List K} (hd : tau.Nodup) {m : ℕ} (h : NodesOrder tau m) :
    WeightsExact tau (tau.length + m) := by
  obtain ⟨T, hT, h10⟩ := C10_quadrature_order tau hd m
  intro P hP
  have := h10.mp h (derivative P) P hP rfl
  rw [← this]
  refine Finset.sum_congr rfl fun k hk => ?_
  have hk := Finset.mem_range.mp hk
  rw [butcher_ok] at hT; cases hT
  simp only [NdArray.vec, List.headD_cons, nd_map_range _ hk, wb]

/-- **C87** (order conditions of linear equations) For nodes whose quadrature formula has the order `len(tau) + m`, the tableau satisfies
`b*A^k*(1,...,1) = 1/(k+1)!` for all `k < len(tau) + m`. -/
theorem C87_order_conditions {K : Type} [Field K] [DecidableEq K] [CharZero K] (tau : List K) (hd : tau.Nodup) (m : ℕ)
    (hm : NodesOrder tau m) : ∃ T, butcherTableuForCollocationPoints tau = .ok T ∧
      ∀ k < tau.length + m, ∑ i : Fin tau.length, T.b.e [i.val] *
        (((Matrix.of fun i j : Fin tau.length => T.A.e [i.val, j.val]) ^ k).mulVec 1) i = 1 / ((k + 1).factorial : K) := by
  obtain ⟨T, hT, -⟩ := C08_butcher_exact tau hd
  refine ⟨T, hT, fun k hk => ?_⟩
  have hA : (Matrix.of fun i j : Fin tau.length => T.A.e [i.val, j.val]) = Matrix.of fun i j : Fin tau.length => wA tau i j := by
    rw [butcher_ok] at hT; cases hT
    rfl
  have hb : ∀ i : Fin tau.length, T.b.e [i.val] = wb tau i := by
    intro i
    rw [butcher_ok] at hT; cases hT
    simp only [NdArray.vec, List.headD_cons, nd_map_range _ i.isLt, wb]
  rw [hA]
  set A := Matrix.of fun i j : Fin tau.length => wA tau i j
  have hrow : ∀ k : ℕ, Matrix.vecMul (fun i : Fin tau.length => wb tau i) (A ^ k) = fun j : Fin tau.length => rowPow tau k j := by
    intro k
    induction k with
    | zero => simp [rowPow]
    | succ k ih =>
      rw [pow_succ, ← Matrix.vecMul_vecMul, ih]
      funext j
      rw [rowPow, Finset.sum_range]
      rfl
  rw [← rowPow_sum hd (weightsExact hd hm) k hk, Finset.sum_range]
  have h1 := Matrix.dotProduct_mulVec (fun i : Fin tau.length => wb tau i) (A ^ k) 1
  rw [hrow] at h1
  simp only [dotProduct, Pi.one_apply, mul_one] at h1
  rw [← h1]
  exact Finset.sum_congr rfl fun i _ => by rw [hb]

/-- The model is the linear ordinary differential equation `x' = Λ*x + g(u, p)`. -/
structure LinearOde (d : DaeObj ℝ) (xdot res : MXExpr ℝ) (Λ : ℕ → ℕ → ℝ) (g : (ℕ → ℝ) → (ℕ → ℝ) → ℕ → ℝ) : Prop where
  explicit : ∀ e, ResidualZero res e ↔ ∀ i < d.nx, xdot.val e i 0 =
    ∑ j ∈ Finset.range d.nx, Λ i j * d.x.val e j 0 + g (fun k => d.u.val e k 0) (fun k => d.p.val e k 0) i
  congr : ∀ u u' p p' : ℕ → ℝ, (∀ k < d.nu, u k = u' k) → (∀ k < d.np, p k = p' k) → ∀ i < d.nx, g u p i = g u' p' i

section
variable (fresh freshI : String → ℕ) (casadiPoints : ℕ → String → Except PyErr (List ℝ))
    (csFunction : List (MXExpr ℝ) → List (MXExpr ℝ) → Except PyErr (CsFn ℝ))
    (dae : DaeObj ℝ) (t : List ℝ) (order : ℕ) (method : String) (tdp_fun : Option (ℝ → Mat ℝ))
    (d : DaeObj ℝ) (xdot res : MXExpr ℝ) (tau : List ℝ) (F : CsFn ℝ) (rep : Bool) (s : Scheme ℝ)

/-- **C87** (superconvergence) For a linear ordinary differential equation `x' = Λ*x + g(u, p)` and nodes whose quadrature formula has the
order `P = len(tau) + m` (`2*len(tau)` for Gauss nodes, `2*len(tau)-1` for Radau nodes), the distance of every solution of the collocation
equations from the exact solution at the grid points is bounded by an explicit constant times `H^P`, plus the propagated error of the
initial state. -/
theorem C87_superconvergence (hcs : IsCsFunction csFunction)
    (pre : SchemePre freshI casadiPoints csFunction dae t order method tdp_fun d xdot res tau F)
    (hs : Scheme.new fresh freshI casadiPoints csFunction dae t order method tdp_fun rep = .ok s)
    (Λ : ℕ → ℕ → ℝ) (g : (ℕ → ℝ) → (ℕ → ℝ) → ℕ → ℝ) (lin : LinearOde d xdot res Λ g) (L θ : ℝ) (hL : 0 ≤ L)
    (hΛ : ∀ i < d.nx, ∑ j ∈ Finset.range d.nx, |Λ i j| ≤ L) (hd : tau.Nodup) (m : ℕ) (hm : NodesOrder tau m)
    (T : ButcherTableau ℝ) (hT : butcherTableuForCollocationPoints tau = .ok T) (α β H : ℝ)
    (hα : ∀ j < s.M, ∑ k ∈ Finset.range s.M, |T.A.e [j, k]| ≤ α) (hβ : ∑ k ∈ Finset.range s.M, |T.b.e [k]| ≤ β)
    (ht : ∀ n < s.N, nd t n ≤ nd t (n + 1) ∧ nd t (n + 1) - nd t n ≤ H) (hθ : θ < 1) (hstep : L * (H * α) ≤ θ)
    (env : Env ℝ) (heq : ∀ v ∈ s.eq.vals env, v = 0) (y : ℕ → ℝ → ℝ)
    (ex : ∀ n < s.N, ∀ i < d.nx, ∀ τ ∈ Icc (nd t n) (nd t (n + 1)), HasDerivWithinAt (y i)
      (∑ j ∈ Finset.range d.nx, Λ i j * y j τ + g (fun k => s.u.val env k n) (fun k => s.p.val env k 0) i)
      (Icc (nd t n) (nd t (n + 1))) τ) (B ε : ℝ)
    (hB : ∀ n < s.N, ∀ i < d.nx, ∀ τ ∈ Icc (nd t n) (nd t (n + 1)),
      |∑ j ∈ Finset.range d.nx, Λ i j * y j τ + g (fun k => s.u.val env k n) (fun k => s.p.val env k 0) i| ≤ B) (hB0 : 0 ≤ B)
    (hε : 0 ≤ ε) (h0 : ∀ i < d.nx, |s.x.val env i 0 - y i (nd t 0)| ≤ ε) :
    let P := s.M + m
    let G := L * Real.exp (L * H) + β * L * θ ^ P / (1 - θ)
    let D := (L ^ P / ((P + 1).factorial : ℝ) + β * (L * α) ^ P / (1 - θ)) * B
    ∀ n ≤ s.N, ∀ i < d.nx, |s.x.val env i n - y i (nd t n)| ≤ Real.exp (G * (nd t n - nd t 0)) * (ε + (nd t n - nd t 0) * (D * H ^ P)) := by
  have b := pre.built hs
  have hpos := pre.pos
  have hA : ∀ i j, T.A.e [i, j] = wA tau i j := by
    intro i j
    rw [butcher_ok] at hT; cases hT
    rfl
  have hb : ∀ k < order, T.b.e [k] = wb tau k := by
    intro k hk
    rw [butcher_ok] at hT; cases hT
    simp [NdArray.vec, nd, List.getD_eq_getElem?_getD, pre.len, hk, wb]
  have hN := b.N_eq
  have hM := b.M_eq
  have hlen := pre.len
  rw [hM] at hα hβ ⊢
  intro P G D
  have hα' : ∀ j < tau.length, ∑ k ∈ Finset.range tau.length, |wA tau j k| ≤ α := by
    intro j hj
    rw [hlen] at hj ⊢
    simpa only [hA] using hα j hj
  have hβ' : ∑ k ∈ Finset.range tau.length, |wb tau k| ≤ β := by
    rw [hlen]
    refine le_trans (le_of_eq (Finset.sum_congr rfl fun k hk => ?_)) hβ
    rw [hb k (Finset.mem_range.mp hk)]
  have hβ0 : 0 ≤ β := (Finset.sum_nonneg fun _ _ => abs_nonneg _).trans hβ
  have hα0 : 0 ≤ α := (Finset.sum_nonneg fun _ _ => abs_nonneg _).trans (hα 0 hpos)
  have hH0 : 0 ≤ H := by
    have := ht 0 (by rw [hN]; have := pre.two; omega)
    linarith [this.1, this.2]
  have h1θ : 0 < 1 - θ := by linarith
  have hθ0 : 0 ≤ θ := le_trans (by positivity) hstep
  have hG : 0 ≤ G := by positivity
  have hD : 0 ≤ D * H ^ P := by positivity
  have hnp : d.np = d.p.rows := by simp [DaeObj.np, MXExpr.numel, pre.p]
  -- the linear map
  let ΛL : (Fin d.nx → ℝ) →L[ℝ] (Fin d.nx → ℝ) :=
    LinearMap.toContinuousLinearMap (Matrix.mulVecLin (Matrix.of fun i j : Fin d.nx => Λ i j))
  have hΛL : ∀ v i, ΛL v i = ∑ j : Fin d.nx, Λ i j * v j := fun v i => rfl
  have hΛn : ∀ v, ‖ΛL v‖ ≤ L * ‖v‖ := by
    intro v
    refine (pi_norm_le_iff_of_nonneg (by positivity)).mpr fun i => ?_
    rw [hΛL, Real.norm_eq_abs]
    refine (Finset.abs_sum_le_sum_abs _ _).trans ?_
    calc ∑ j : Fin d.nx, |Λ i j * v j| ≤ ∑ j : Fin d.nx, |Λ i j| * ‖v‖ := Finset.sum_le_sum fun j _ => by
          rw [abs_mul]
          exact mul_le_mul_of_nonneg_left (norm_le_pi_norm v j) (abs_nonneg _)
      _ = (∑ j ∈ Finset.range d.nx, |Λ i j|) * ‖v‖ := by rw [Finset.sum_range, Finset.sum_mul]
      _ ≤ _ := mul_le_mul_of_nonneg_right (hΛ i i.isLt) (norm_nonneg _)
  obtain ⟨hcol, hcont, hpar⟩ := (Scheme.eq_zero_iff pre b env).mp heq
  -- one step
  have step : ∀ n < s.N, ∀ εn, 0 ≤ εn → (∀ i < d.nx, |s.x.val env i n - y i (nd t n)| ≤ εn) →
      ∀ i < d.nx, |s.x.val env i (n + 1) - y i (nd t (n + 1))| ≤ (1 + (nd t (n + 1) - nd t n) * G) * εn +
        (nd t (n + 1) - nd t n) * (D * H ^ P) := by
    intro n hn εn hεn hx
    have hn' : n < t.length - 1 := by rw [← hN]; exact hn
    obtain ⟨t1, t2⟩ := ht n hn
    set h := nd t (n + 1) - nd t n with hh
    have hh0 : 0 ≤ h := sub_nonneg.mpr t1
    have hadd : nd t n + h = nd t (n + 1) := by rw [hh]; ring
    let gE : Fin d.nx → ℝ := fun i => g (fun k => s.u.val env k n) (fun k => s.p.val env k 0) i
    let yE : ℝ → Fin d.nx → ℝ := fun τ i => y i τ
    have hrhs : ∀ τ, ∀ i : Fin d.nx, (ΛL (yE τ) + gE) i =
        ∑ j ∈ Finset.range d.nx, Λ i j * y j τ + g (fun k => s.u.val env k n) (fun k => s.p.val env k 0) i := by
      intro τ i
      rw [Pi.add_apply, hΛL, Finset.sum_range]
    have key := linear_step ΛL (L := L) hd (by rw [hlen]; exact hpos) (weightsExact hd hm) (a := nd t n) (h := h) (H := H) (B := B)
      (α := α) (β := β) (θ := θ) hh0 t2 hL hΛn hα' hβ' hθ hstep yE gE (by
        intro τ hτ
        rw [hadd] at hτ ⊢
        refine hasDerivWithinAt_pi.mpr fun i => ?_
        rw [hrhs]
        exact ex n hn i i.isLt τ hτ) (by
        intro τ hτ
        rw [hadd] at hτ
        refine (pi_norm_le_iff_of_nonneg hB0).mpr fun i => ?_
        rw [hrhs, Real.norm_eq_abs]
        exact hB n hn i i.isLt τ hτ)
      (fun i => s.x.val env i n) (fun i => s.x.val env i (n + 1)) (fun j i => env (fresh "K") i (n * order + j)) (by
        intro j hj
        rw [hlen] at hj
        have hc : n * order + j < (t.length - 1) * order := block_lt hn' hj
        obtain ⟨e1, a1⟩ := exists_atPoint hcs pre b.toCore env hc
        have r1 : ResidualZero res e1 := by
          intro i hi k hk
          rw [pre.wf.res_cols] at hk
          obtain rfl : k = 0 := by omega
          rw [← (a1.out hcs pre b.toCore hc).1 i hi]
          exact hcol _ hc i hi
        funext i
        have hxi : i.val < d.x.rows := by rw [← pre.wf.nx]; exact i.isLt
        have g1 := (lin.explicit e1).mp r1 i i.isLt
        rw [a1.xdot i hxi, b.Kd] at g1
        simp only [MXExpr.sym] at g1
        rw [g1, Pi.add_apply, hΛL, Finset.sum_range]
        refine congrArg₂ (· + ·) (Finset.sum_congr rfl fun l _ => ?_) ?_
        · rw [a1.x l (by rw [← pre.wf.nx]; exact l.isLt), b.X env l n j hn' hj, ← hh, b.x, hlen]
          simp only [Pi.add_apply, Pi.smul_apply, Finset.sum_apply, smul_eq_mul, MXExpr.sym]
          congr 3
          exact Finset.sum_congr rfl fun k _ => mul_comm _ _
        · refine lin.congr _ _ _ _ (fun k hk => ?_) (fun k hk => ?_) i i.isLt
          · rw [a1.u k (by rw [← pre.wf.nu]; exact hk), b.M_eq, div_block hj]
          · rw [a1.p k (by rw [← hnp]; exact hk)]
            cases rep
            · rfl
            · exact hpar rfl _ hc k hk) (by
        funext i
        have := hcont n hn' i i.isLt
        rw [b.cont env i n hn', sub_eq_zero] at this
        rw [hlen, b.x]
        simp only [Pi.add_apply, Pi.smul_apply, Finset.sum_apply, smul_eq_mul, MXExpr.sym]
        rw [← this]
        congr 2
        exact Finset.sum_congr rfl fun k _ => mul_comm _ _)
    rw [hlen, hadd] at key
    have hen : ‖(fun i : Fin d.nx => s.x.val env i n) - yE (nd t n)‖ ≤ εn :=
      (pi_norm_le_iff_of_nonneg hεn).mpr fun i => hx i i.isLt
    intro i hi
    refine (norm_le_pi_norm ((fun i : Fin d.nx => s.x.val env i (n + 1)) - yE (nd t (n + 1))) ⟨i, hi⟩).trans (key.trans ?_)
    have e1 : ((L * H) ^ P / ((P + 1).factorial : ℝ) + β * (L * (H * α)) ^ P / (1 - θ)) * B = D * H ^ P := by
      simp only [D, mul_pow]
      field_simp
    rw [e1]
    gcongr
  -- all steps
  have gron := gronwall_grid (fun n => nd t n) s.N (fun n hn => (ht n hn).1)
    (fun n => Nat.rec ε (fun n e => (1 + (nd t (n + 1) - nd t n) * G) * e + (nd t (n + 1) - nd t n) * (D * H ^ P)) n)
    G (D * H ^ P) hG hD hε (fun n hn => le_rfl)
  have err : ∀ n ≤ s.N, 0 ≤ (Nat.rec ε (fun n e => (1 + (nd t (n + 1) - nd t n) * G) * e +
      (nd t (n + 1) - nd t n) * (D * H ^ P)) n : ℝ) ∧ ∀ i < d.nx, |s.x.val env i n - y i (nd t n)| ≤
      (Nat.rec ε (fun n e => (1 + (nd t (n + 1) - nd t n) * G) * e + (nd t (n + 1) - nd t n) * (D * H ^ P)) n : ℝ) := by
    intro n
    induction n with
    | zero => intro _; exact ⟨hε, h0⟩
    | succ n ih =>
      intro hn
      obtain ⟨i1, i2⟩ := ih (by omega)
      have hh0 : 0 ≤ nd t (n + 1) - nd t n := sub_nonneg.mpr (ht n (by omega)).1
      exact ⟨by positivity, step n (by omega) _ i1 i2⟩
  exact fun n hn i hi => ((err n hn).2 i hi).trans (gron n hn).2

/-- **C87** (integrator) The states at the grid points that the integrator returns for a linear model have the order of the quadrature
formula of the nodes. -/
theorem C87_integrator (hcs : IsCsFunction csFunction)
    (pre : SchemePre freshI casadiPoints csFunction dae t order method tdp_fun d xdot res tau F)
    (hfr : DistinctSyms fresh) (hpq : dae.np = 0 ∨ dae.nq = 0)
    (Λ : ℕ → ℕ → ℝ) (g : (ℕ → ℝ) → (ℕ → ℝ) → ℕ → ℝ) (lin : LinearOde d xdot res Λ g) (L θ : ℝ) (hL : 0 ≤ L)
    (hΛ : ∀ i < d.nx, ∑ j ∈ Finset.range d.nx, |Λ i j| ≤ L) (hd : tau.Nodup) (m : ℕ) (hm : NodesOrder tau m)
    (T : ButcherTableau ℝ) (hT : butcherTableuForCollocationPoints tau = .ok T) (α β H : ℝ)
    (hα : ∀ j < order, ∑ k ∈ Finset.range order, |T.A.e [j, k]| ≤ α) (hβ : ∑ k ∈ Finset.range order, |T.b.e [k]| ≤ β)
    (ht : ∀ n < t.length - 1, nd t n ≤ nd t (n + 1) ∧ nd t (n + 1) - nd t n ≤ H) (hθ : θ < 1) (hstep : L * (H * α) ≤ θ)
    (rootfinder : (List ℝ → List ℝ) → List ℝ → Except PyErr (List ℝ)) (hrf : IsRootfinder rootfinder) :
    ∃ int, Integrator.new fresh freshI casadiPoints csFunction dae t order method tdp_fun = .ok int ∧
      ∀ x0 z0 u p out, int.call rootfinder x0 z0 u p = .ok out →
      ∀ y : ℕ → ℝ → ℝ, (∀ n < t.length - 1, ∀ i < d.nx, ∀ τ ∈ Icc (nd t n) (nd t (n + 1)), HasDerivWithinAt (y i)
        (∑ j ∈ Finset.range d.nx, Λ i j * y j τ + g (fun k => u.e k n) (fun k => p.e k 0) i) (Icc (nd t n) (nd t (n + 1))) τ) →
      ∀ B, 0 ≤ B → (∀ n < t.length - 1, ∀ i < d.nx, ∀ τ ∈ Icc (nd t n) (nd t (n + 1)),
        |∑ j ∈ Finset.range d.nx, Λ i j * y j τ + g (fun k => u.e k n) (fun k => p.e k 0) i| ≤ B) →
      ∀ ε, 0 ≤ ε → (∀ i < d.nx, |x0.e i 0 - y i (nd t 0)| ≤ ε) →
      let P := order + m
      let G := L * Real.exp (L * H) + β * L * θ ^ P / (1 - θ)
      let D := (L ^ P / ((P + 1).factorial : ℝ) + β * (L * α) ^ P / (1 - θ)) * B
      let bound := fun n => Real.exp (G * (nd t n - nd t 0)) * (ε + (nd t n - nd t 0) * (D * H ^ P))
      (∀ n < t.length, ∀ i < d.nx, |out.x.e i n - y i (nd t n)| ≤ bound n) ∧
      ∀ n < t.length - 1, ∀ i < d.nx, |out.xf.e i n - y i (nd t (n + 1))| ≤ bound (n + 1) := by
  obtain ⟨s, x1, hs, -, hx1v, hnew⟩ := integrator_new fresh freshI casadiPoints csFunction dae t order method tdp_fun d xdot res tau F
    pre
  rw [if_neg (by omega)] at hnew
  have b := pre.built hs
  obtain ⟨px, -⟩ := makeImplicit_parts pre.impl
  have hnx : dae.nx = d.nx := by simp [DaeObj.nx, px]
  have htwo := pre.two
  refine ⟨_, hnew, ?_⟩
  intro x0 z0 u p out hout y hex B hB0 hB ε hε h0 P G D bound
  unfold Integrator.call at hout
  simp only [bind, Except.bind] at hout
  split at hout
  · cases hout
  rename_i sol hsol
  have hroot := (hrf _ _ _ hsol).2
  have hout := Except.ok.inj hout
  set env := Integrator.envOf fresh s sol u p with henv
  have hu : s.u.val env = u.e := by
    rw [b.u]
    show Integrator.envOf fresh s sol u p (fresh "u") = _
    unfold Integrator.envOf
    rw [if_neg hfr.xu.symm, if_neg hfr.Ku.symm, if_neg hfr.Zu.symm, if_pos rfl]
  have hp : s.p.val env = p.e := by
    rw [b.p]
    show Integrator.envOf fresh s sol u p (fresh "P") = _
    unfold Integrator.envOf
    rw [if_neg hfr.xP.symm, if_neg hfr.KP.symm, if_neg hfr.ZP.symm, if_neg hfr.uP.symm, if_pos rfl]
  have hinit : ∀ i < d.nx, s.x.val env i 0 = x0.e i 0 := by
    intro i hi
    have := hroot (x1.val env i 0 - x0.e i 0)
      (List.mem_append_right _ (List.mem_map.mpr ⟨i, List.mem_range.mpr (by omega), rfl⟩))
    rw [hx1v] at this
    exact sub_eq_zero.mp this
  have key := C87_superconvergence fresh freshI casadiPoints csFunction dae t order method tdp_fun d xdot res tau F false s hcs pre hs
    Λ g lin L θ hL hΛ hd m hm T hT α β H (by rw [b.M_eq]; exact hα) (by rw [b.M_eq]; exact hβ) (by rw [b.N_eq]; exact ht) hθ hstep env
    (fun v hv => hroot v (List.mem_append_left _ hv)) y (by rw [b.N_eq, hu, hp]; exact hex) B ε
    (by rw [b.N_eq, hu, hp]; exact hB) hB0 hε (fun i hi => by rw [hinit i hi]; exact h0 i hi)
  rw [b.N_eq, b.M_eq] at key
  rw [← hout]
  exact ⟨fun n hn i hi => key n (by omega) i hi, fun n hn i hi => key (n + 1) (by omega) i hi⟩

end

/-! ## Non-vacuity -/

theorem decay_linear (freshI : String → ℕ) : LinearOde (decayD freshI) (.sym (freshI "xdot") 1) (decayRes freshI) (fun _ _ => -1)
    (fun _ _ _ => 0) := by
  refine ⟨fun e => ?_, fun _ _ _ _ _ _ _ _ => rfl⟩
  rw [(decay_lipschitz freshI).explicit e]
  refine forall_congr' fun i => forall_congr' fun hi => ?_
  have : ∑ j ∈ Finset.range (decayD freshI).nx, (-1 : ℝ) * (decayD freshI).x.val e j 0 = -e 0 0 0 := by
    show ∑ j ∈ Finset.range 1, _ = _
    simp [decayD, MXExpr.sym]
  rw [this, add_zero]

/-- The midpoint is a Gauss node: order 2. -/
theorem nodesOrder_midpoint : NodesOrder ([1 / 2] : List ℝ) 1 := by
  intro q P hq hP
  have hq0 : q = C (q.coeff 0) := eq_C_of_degree_le_zero (Nat.WithBot.lt_one_iff_le_zero.mp (by simpa using hq))
  have h1 : derivative P = derivative (C (q.coeff 0) * (C (1 / 2) * X ^ 2 - C (1 / 2) * X)) := by
    rw [hP]
    conv_lhs => rw [hq0]
    simp only [List.map_cons, List.map_nil, List.prod_cons, List.prod_nil, mul_one, derivative_C_mul, derivative_sub,
      derivative_X_pow, derivative_X]
    rw [← mul_assoc, ← C_mul]
    norm_num
    ring
  rw [antiderivative_diff h1]
  simp

/-- Gauss nodes have the order `2*len(tau)`, Radau nodes `2*len(tau)-1`. -/
example (tau : List ℝ) : (IsGauss tau ↔ NodesOrder tau tau.length) ∧ (IsRadau tau → NodesOrder tau (tau.length - 1)) ∧
    NodesOrder ([1 / 3, 1] : List ℝ) 1 := ⟨Iff.rfl, fun h => h.2, isRadau_two.2⟩

/-- `b*A^2*(1,1) = 1/6` for the two Radau nodes. -/
example : ∃ T, butcherTableuForCollocationPoints ([1 / 3, 1] : List ℝ) = .ok T ∧
    ∑ i : Fin 2, T.b.e [i.val] * (((Matrix.of fun i j : Fin 2 => T.A.e [i.val, j.val]) ^ 2).mulVec 1) i = 1 / 6 := by
  obtain ⟨T, hT, h⟩ := C87_order_conditions ([1 / 3, 1] : List ℝ) (by norm_num) 1 isRadau_two.2
  refine ⟨T, hT, (h 2 (by simp)).trans ?_⟩
  norm_num [Nat.factorial]

/-- The bound on `k` cannot be raised: `b*A^3*(1,1)` is not `1/24` for these nodes. -/
example : ∃ T, butcherTableuForCollocationPoints ([1 / 3, 1] : List ℚ) = .ok T ∧
    ∑ i : Fin 2, T.b.e [i.val] * (((Matrix.of fun i j : Fin 2 => T.A.e [i.val, j.val]) ^ 3).mulVec 1) i = 1 / 36 := by
  refine ⟨_, butcher_ok _, ?_⟩
  decide +kernel

/-- Midpoint rule for `x' = -x`, `x(0) = 1` with steps of at most `H <= 1`: the solutions of the collocation equations differ from
`exp(-t)` at most by `t*exp(4*t)*H^2` at the grid points (C83 gives the first power of `H`). -/
example (freshI : String → ℕ) (hI : 7 ≤ freshI "xdot") (t : List ℝ) (two : 2 ≤ t.length) (H : ℝ) (hH : H ≤ 1) (h0 : nd t 0 = 0)
    (ht : ∀ n < t.length - 1, nd t n < nd t (n + 1) ∧ nd t (n + 1) - nd t n ≤ H) : ∃ s,
    Scheme.new exFresh freshI (fun _ _ => .ok [1 / 2]) idealCsFunction decayO t 1 "legendre" none = .ok s ∧ s.N = t.length - 1 ∧
    (∃ env, (∀ v ∈ s.eq.vals env, v = 0) ∧ s.x.val env 0 0 = 1) ∧
    ∀ env, (∀ v ∈ s.eq.vals env, v = 0) → s.x.val env 0 0 = 1 → ∀ n ≤ s.N,
      |s.x.val env 0 n - Real.exp (-nd t n)| ≤ Real.exp (4 * nd t n) * (nd t n * H ^ 2) := by
  obtain ⟨F, pre⟩ := decay_pre freshI hI t [1 / 2] two (by simp)
  obtain ⟨s, hs⟩ := C26_constructed exFresh freshI _ _ _ _ _ _ _ _ _ _ _ _ false pre
  have b := pre.built hs
  have hN : s.N = t.length - 1 := b.N_eq
  have hM : s.M = 1 := b.M_eq
  obtain ⟨T, hT, hA, hB, -⟩ := C09_butcher_consistent ([1 / 2] : List ℝ) (by simp) (by simp)
  obtain ⟨T', hT', -, -, -, hc, -⟩ := C08_butcher_exact ([1 / 2] : List ℝ) (by simp)
  rw [hT] at hT'
  cases hT'
  have hA0 : T.A.e [0, 0] = 1 / 2 := by
    have := hA 0 (by simp)
    rw [hc 0 (by simp)] at this
    simpa using this
  have hB0 : T.b.e [0] = 1 := by simpa using hB
  have hf : [exFresh "x", exFresh "K", exFresh "u", exFresh "P"].Nodup := by decide
  have hpos : ∀ n ≤ s.N, 0 ≤ nd t n := by
    intro n
    induction n with
    | zero => intro _; exact h0.ge
    | succ n ih => intro hn; exact (ih (by omega)).trans (ht n (by omega)).1.le
  have hα : ∀ j < s.M, ∑ k ∈ Finset.range s.M, |T.A.e [j, k]| ≤ 1 / 2 := by
    intro j hj
    rw [hM] at hj ⊢
    obtain rfl : j = 0 := by omega
    rw [Finset.sum_range_one, hA0]
    norm_num
  have hβ : ∑ k ∈ Finset.range s.M, |T.b.e [k]| ≤ 1 := by
    rw [hM, Finset.sum_range_one, hB0, abs_one]
  have hH0 : 0 ≤ H := by
    have := ht 0 (by omega)
    linarith [this.1, this.2]
  have hsum : ∀ τ, ∑ j ∈ Finset.range (decayD freshI).nx, (-1 : ℝ) * Real.exp (-τ) + 0 = -Real.exp (-τ) := by
    intro τ
    show ∑ j ∈ Finset.range 1, _ + _ = _
    simp
  refine ⟨s, hs, hN, ?_, fun env heq hx n hn => ?_⟩
  · obtain ⟨env, heq, hx, -, -⟩ := C78_exists exFresh freshI _ _ _ _ _ _ _ _ _ _ _ _ false s idealCsFunction_spec pre hs hf _ 1 (1 / 2)
      (decay_lipschitz freshI) (by norm_num) T hT (fun n hn j hj => by
        have h1 := hα j hj
        have h2 := ht n (by omega)
        rw [one_mul, abs_of_pos (by linarith)]
        calc _ ≤ (1 : ℝ) * (1 / 2) := mul_le_mul (by linarith) h1 (Finset.sum_nonneg fun _ _ => abs_nonneg _) zero_le_one
          _ = 1 / 2 := one_mul _) (fun _ _ _ => 0) (fun h => by cases h) (fun _ => 1)
    exact ⟨env, heq, hx 0⟩
  · have := C87_superconvergence exFresh freshI _ _ _ _ _ _ _ _ _ _ _ _ false s idealCsFunction_spec pre hs _ _ (decay_linear freshI)
      1 (1 / 2) zero_le_one (fun i _ => by
        show ∑ j ∈ Finset.range 1, _ ≤ _
        simp) (by simp) 1 nodesOrder_midpoint T hT (1 / 2) 1 H hα hβ
      (fun n hn => ⟨(ht n (by omega)).1.le, (ht n (by omega)).2⟩) (by norm_num) (by linarith) env heq (fun _ τ => Real.exp (-τ))
      (fun n hn i hi τ hτ => by
        rw [hsum]
        have := ((hasDerivAt_neg τ).exp).hasDerivWithinAt (s := Icc (nd t n) (nd t (n + 1)))
        simpa using this) 1 0
      (fun n hn i hi τ hτ => by
        rw [hsum, abs_neg, Real.abs_exp, Real.exp_le_one_iff]
        have := hpos n hn.le
        linarith [hτ.1]) zero_le_one le_rfl (by
        intro i hi
        obtain rfl : i = 0 := by change i < 1 at hi; omega
        rw [hx, h0]
        simp) n hn 0 Nat.one_pos
    refine this.trans ?_
    rw [h0, hM, sub_zero, zero_add]
    have hp := hpos n hn
    have e1 : (1 : ℝ) * Real.exp (1 * H) + 1 * 1 * (1 / 2) ^ (1 + 1) / (1 - 1 / 2) ≤ 4 := by
      have h1 : Real.exp (1 * H) ≤ Real.exp 1 := Real.exp_le_exp.mpr (by linarith)
      have h2 := Real.exp_one_lt_d9
      have h3 : (1 : ℝ) * 1 * (1 / 2) ^ (1 + 1) / (1 - 1 / 2) = 1 / 2 := by norm_num
      rw [h3]
      norm_num at h2
      linarith
    have e2 : ((1 : ℝ) ^ (1 + 1) / ((1 + 1 + 1).factorial : ℝ) + 1 * (1 * (1 / 2)) ^ (1 + 1) / (1 - 1 / 2)) * 1 ≤ 1 := by
      norm_num [Nat.factorial]
    have e3 : ((1 : ℝ) ^ (1 + 1) / ((1 + 1 + 1).factorial : ℝ) + 1 * (1 * (1 / 2)) ^ (1 + 1) / (1 - 1 / 2)) * 1 * H ^ (1 + 1) ≤ H ^ 2 := by
      calc _ ≤ 1 * H ^ (1 + 1) := mul_le_mul_of_nonneg_right e2 (pow_nonneg hH0 _)
        _ = H ^ 2 := one_mul _
    gcongr

end CE
