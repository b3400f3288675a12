import Verif.Num.PropsFloatScheme
import Verif.Num.PropsIndex2

/-!
# Property C119: quadratures of inexact solutions and of the scheme with rounded coefficients
-/

open Set

namespace CE

/-- The quadrature expression depends Lipschitz continuously on the time (and through `tdp_fun` on the time-dependent parameter), for equal
values of the other symbols. -/
def QuadTimeLipschitz (d : DaeObj ℝ) (xdot : MXExpr ℝ) (tdp_fun : Option (ℝ → Mat ℝ)) (Lt : ℝ) : Prop :=
  ∀ (v ξ w u p : ℕ → ℝ) (τ τ' : ℝ) (e e' : Env ℝ), PointVals d xdot v ξ w u p τ (tdpAt tdp_fun τ).e e →
    PointVals d xdot v ξ w u p τ' (tdpAt tdp_fun τ').e e' → ∀ k < d.nq, |d.quad.val e k 0 - d.quad.val e' k 0| ≤ Lt * |τ - τ'|

/-- Two sums with neighbouring coefficients and neighbouring values. -/
theorem sum_near (M : ℕ) (v v' c c' : ℕ → ℝ) (h η E κ β : ℝ) (hh : 0 ≤ h) (hE : 0 ≤ E) (hκ : 0 ≤ κ) (hβ : ∑ k ∈ Finset.range M, |c k| ≤ β)
    (hc : ∑ k ∈ Finset.range M, |c' k - h * c k| ≤ h * η) (hv : ∀ k < M, |v k - v' k| ≤ E) (hv' : ∀ k < M, |v' k| ≤ κ) :
    |h * (∑ k ∈ Finset.range M, v k * c k) - ∑ k ∈ Finset.range M, v' k * c' k| ≤ h * (β * E + η * κ) := by
  have e : h * (∑ k ∈ Finset.range M, v k * c k) - ∑ k ∈ Finset.range M, v' k * c' k =
      h * (∑ k ∈ Finset.range M, (v k - v' k) * c k) - ∑ k ∈ Finset.range M, v' k * (c' k - h * c k) := by
    rw [Finset.mul_sum, Finset.mul_sum, ← Finset.sum_sub_distrib, ← Finset.sum_sub_distrib]
    exact Finset.sum_congr rfl fun k _ => by ring
  have h1 : |∑ k ∈ Finset.range M, (v k - v' k) * c k| ≤ β * E := by
    refine (Finset.abs_sum_le_sum_abs _ _).trans ?_
    rw [mul_comm]
    refine le_trans ?_ (mul_le_mul_of_nonneg_left hβ hE)
    rw [Finset.mul_sum]
    refine Finset.sum_le_sum fun k hk => ?_
    rw [abs_mul]
    exact mul_le_mul_of_nonneg_right (hv k (Finset.mem_range.mp hk)) (abs_nonneg _)
  have h2 : |∑ k ∈ Finset.range M, v' k * (c' k - h * c k)| ≤ κ * (h * η) := by
    refine (Finset.abs_sum_le_sum_abs _ _).trans ?_
    refine le_trans ?_ (mul_le_mul_of_nonneg_left hc hκ)
    rw [Finset.mul_sum]
    refine Finset.sum_le_sum fun k hk => ?_
    rw [abs_mul]
    exact mul_le_mul_of_nonneg_right (hv' k (Finset.mem_range.mp hk)) (abs_nonneg _)
  have h3 : |h * ∑ k ∈ Finset.range M, (v k - v' k) * c k| ≤ h * (β * E) := by
    rw [abs_mul, abs_of_nonneg hh]
    exact mul_le_mul_of_nonneg_left h1 hh
  rw [e]
  refine (abs_sub _ _).trans ((add_le_add h3 h2).trans (le_of_eq ?_))
  ring

/-- Two quadratures with neighbouring coefficients and neighbouring values. -/
theorem quad_near (t : ℕ → ℝ) (N M : ℕ) (ht : ∀ n < N, t n ≤ t (n + 1)) (q q' v v' c : ℕ → ℝ) (c' : ℕ → ℕ → ℝ) (η E κ β : ℝ)
    (hE : 0 ≤ E) (hκ : 0 ≤ κ) (hβ : ∑ k ∈ Finset.range M, |c k| ≤ β)
    (hc : ∀ n < N, ∑ k ∈ Finset.range M, |c' n k - (t (n + 1) - t n) * c k| ≤ (t (n + 1) - t n) * η)
    (hv : ∀ n < N, ∀ k < M, |v (n * M + k) - v' (n * M + k)| ≤ E) (hv' : ∀ n < N, ∀ k < M, |v' (n * M + k)| ≤ κ) (h0 : q 0 = q' 0)
    (hq : ∀ n < N, q (n + 1) = q n + (t (n + 1) - t n) * ∑ k ∈ Finset.range M, v (n * M + k) * c k)
    (hq' : ∀ n < N, q' (n + 1) = q' n + ∑ k ∈ Finset.range M, v' (n * M + k) * c' n k) :
    ∀ n ≤ N, |q n - q' n| ≤ (t n - t 0) * (β * E + η * κ) := by
  intro n
  induction n with
  | zero => intro _; rw [h0]; simp
  | succ n ih =>
    intro hn
    have h1 := ih (by omega)
    have h2 := sum_near M (fun k => v (n * M + k)) (fun k => v' (n * M + k)) c (c' n) (t (n + 1) - t n) η E κ β
      (sub_nonneg.mpr (ht n hn)) hE hκ hβ (hc n hn) (hv n hn) (hv' n hn)
    rw [hq n hn, hq' n hn]
    have e : (t (n + 1) - t 0) * (β * E + η * κ) = (t n - t 0) * (β * E + η * κ) + (t (n + 1) - t n) * (β * E + η * κ) := by ring
    rw [e]
    rw [abs_le] at h1 h2 ⊢
    constructor <;> linarith [h1.1, h1.2, h2.1, h2.2]

/-- The bounds for the states grow with the grid point. -/
theorem bound_mono (t : ℕ → ℝ) (N : ℕ) (ht : ∀ n < N, t n ≤ t (n + 1)) (Λ ε c τ : ℝ) (hΛ : 0 ≤ Λ) (hε : 0 ≤ ε) (hc : 0 ≤ c) (hτ : 0 ≤ τ) :
    ∀ n ≤ N, 0 ≤ Real.exp (Λ * (t n - t 0)) * (ε + (t n - t 0) * c + n * τ) ∧
      Real.exp (Λ * (t n - t 0)) * (ε + (t n - t 0) * c + n * τ) ≤ Real.exp (Λ * (t N - t 0)) * (ε + (t N - t 0) * c + N * τ) := by
  intro n hn
  have h1 : ∀ m ≤ N, 0 ≤ t m - t 0 := by
    intro m
    induction m with
    | zero => simp
    | succ m ih => intro hm; have := ih (by omega); have := ht m (by omega); linarith
  have h2 : ∀ m, n + m ≤ N → t n ≤ t (n + m) := by
    intro m
    induction m with
    | zero => simp
    | succ m ih => intro hm; have := ih (by omega); have := ht (n + m) (by omega); rw [← add_assoc]; linarith
  have h3 : t n ≤ t N := by
    have := h2 (N - n) (by omega)
    rwa [Nat.add_sub_cancel' hn] at this
  have h4 := h1 n hn
  have h5 : (n : ℝ) ≤ N := by exact_mod_cast hn
  refine ⟨by positivity, mul_le_mul (Real.exp_le_exp.mpr (mul_le_mul_of_nonneg_left (by linarith) hΛ)) ?_ (by positivity) (Real.exp_nonneg _)⟩
  exact add_le_add (add_le_add le_rfl (mul_le_mul_of_nonneg_right (by linarith) hc)) (mul_le_mul_of_nonneg_right h5 hτ)

/-- The values of the quadrature expression at one collocation point of two schemes of the same model. -/
theorem quad_point {fresh freshI : String → ℕ} {casadiPoints : ℕ → String → Except PyErr (List ℝ)}
    {csFunction : List (MXExpr ℝ) → List (MXExpr ℝ) → Except PyErr (CsFn ℝ)}
    {dae : DaeObj ℝ} {t : List ℝ} {order : ℕ} {method : String} {tdp_fun : Option (ℝ → Mat ℝ)}
    {d : DaeObj ℝ} {xdot res : MXExpr ℝ} {tau : List ℝ} {F : CsFn ℝ} {rep : Bool} {s s' : Scheme ℝ} (hcs : IsCsFunction csFunction)
    (pre : SchemePre freshI casadiPoints csFunction dae t order method tdp_fun d xdot res tau F)
    (b : s.Core fresh t order tdp_fun rep d F) (b' : s'.Core fresh t order tdp_fun rep d F)
    (Lq Lqz η : ℝ) (lq : LipschitzQuadZ d Lq Lqz) (env₁ env₂ : Env ℝ)
    (hu : ∀ n < t.length - 1, ∀ i < d.u.rows, env₁ (fresh "u") i n = env₂ (fresh "u") i n)
    (hp : ∀ c < s.p.cols, ∀ i < d.p.rows, env₁ (fresh "P") i c = env₂ (fresh "P") i c) (n j : ℕ) (hn : n < t.length - 1) (hj : j < order)
    (htime : ∀ (v ξ w u p : ℕ → ℝ) (e e' : Env ℝ), PointVals d xdot v ξ w u p (nd s'.tc (n * order + j)) (tdpAt tdp_fun (nd s'.tc (n * order + j))).e e →
      PointVals d xdot v ξ w u p (nd s.tc (n * order + j)) (tdpAt tdp_fun (nd s.tc (n * order + j))).e e' →
      ∀ k < d.nq, |d.quad.val e k 0 - d.quad.val e' k 0| ≤ η)
    (δx δz : ℝ) (hx : ∀ i < d.nx, |s.X.val env₁ i (n * order + j) - s'.X.val env₂ i (n * order + j)| ≤ δx)
    (hz : ∀ k < d.nz, |env₁ (fresh "Z") k (n * order + j) - env₂ (fresh "Z") k (n * order + j)| ≤ δz) :
    ∀ k < d.nq, |s.quad.val env₁ k (n * order + j) - s'.quad.val env₂ k (n * order + j)| ≤ Lq * δx + Lqz * δz + η := by
  intro k hk
  have hnq : d.nq = d.quad.rows := by simp [DaeObj.nq, MXExpr.numel, pre.quad]
  have hc := block_lt hn hj
  obtain ⟨e₁, a₁⟩ := exists_atPoint hcs pre b env₁ hc
  obtain ⟨e₂, a₂⟩ := exists_atPoint hcs pre b' env₂ hc
  have v₁ := a₁.vals pre b
  have v₂ := a₂.vals pre b'
  rw [div_block hj] at v₁ v₂
  obtain ⟨e₃, v₃⟩ := exists_vals hcs pre (fun i => env₂ (fresh "K") i (n * order + j)) (fun i => s'.X.val env₂ i (n * order + j))
    (fun i => env₂ (fresh "Z") i (n * order + j)) (fun i => env₂ (fresh "u") i n)
    (fun i => env₂ (fresh "P") i (if rep then n * order + j else 0)) (nd s.tc (n * order + j)) (tdpAt tdp_fun (nd s.tc (n * order + j))).e
  have h1 := htime _ _ _ _ _ e₂ e₃ v₂ v₃ k hk
  have h2 := lq e₁ e₃ (fun i hi => by rw [v₁.u i hi, v₃.u i hi, hu n hn i hi])
    (fun i hi => by
      rw [v₁.p i hi, v₃.p i hi]
      refine hp _ ?_ i hi
      rw [b.p]
      cases rep
      · exact Nat.one_pos
      · exact hc) (by rw [v₁.t, v₃.t]) (fun i hi l hl => by rw [v₁.tdp i hi l hl, v₃.tdp i hi l hl]) δx δz
    (fun i hi => by
      have hi' : i < d.x.rows := by rw [← pre.wf.nx]; exact hi
      rw [v₁.x i hi', v₃.x i hi']
      exact hx i hi) (fun l hl => by
      have hl' : l < d.z.rows := by rw [← pre.wf.nz]; exact hl
      rw [v₁.z l hl', v₃.z l hl']
      exact hz l hl) k hk
  rw [(a₁.out hcs pre b hc).2 k (by rw [← hnq]; exact hk), (a₂.out hcs pre b' hc).2 k (by rw [← hnq]; exact hk)]
  rw [abs_le] at h1 h2 ⊢
  constructor <;> linarith [h1.1, h1.2, h2.1, h2.2]

section
variable (fresh freshI : String → ℕ) (casadiPoints : ℕ → String → Except PyErr (List ℝ))
    (csFunction : List (MXExpr ℝ) → List (MXExpr ℝ) → Except PyErr (CsFn ℝ))
    (dae : DaeObj ℝ) (t : List ℝ) (order : ℕ) (method : String) (tdp_fun : Option (ℝ → Mat ℝ))
    (d : DaeObj ℝ) (xdot res : MXExpr ℝ) (tau : List ℝ) (F : CsFn ℝ) (rep : Bool) (s s' : Scheme ℝ)

/-- **C119** (sensitivity) Two assignments with the same inputs and parameters whose states and algebraic states at the collocation points
differ at most by `δx` and `δz`: bounds for the differences of the quadratures at the grid points and at the collocation points. -/
theorem C119_sensitivity (hcs : IsCsFunction csFunction)
    (pre : SchemePre freshI casadiPoints csFunction dae t order method tdp_fun d xdot res tau F)
    (hs : Scheme.new fresh freshI casadiPoints csFunction dae t order method tdp_fun rep = .ok s)
    (Lq Lqz : ℝ) (lq : LipschitzQuadZ d Lq Lqz)
    (T : ButcherTableau ℝ) (hT : butcherTableuForCollocationPoints tau = .ok T) (α β H : ℝ)
    (hα : ∀ j < s.M, ∑ k ∈ Finset.range s.M, |T.A.e [j, k]| ≤ α) (hβ : ∑ k ∈ Finset.range s.M, |T.b.e [k]| ≤ β)
    (ht : ∀ n < s.N, nd t n ≤ nd t (n + 1) ∧ nd t (n + 1) - nd t n ≤ H)
    (env₁ env₂ : Env ℝ)
    (hu : ∀ n < s.N, ∀ i < d.nu, s.u.val env₁ i n = s.u.val env₂ i n)
    (hp : ∀ c < s.p.cols, ∀ i < d.np, s.p.val env₁ i c = s.p.val env₂ i c)
    (δx δz : ℝ) (hE : 0 ≤ Lq * δx + Lqz * δz)
    (hx : ∀ c < s.N * s.M, ∀ i < d.nx, |s.X.val env₁ i c - s.X.val env₂ i c| ≤ δx)
    (hz : ∀ c < s.N * s.M, ∀ k < d.nz, |s.Z.val env₁ k c - s.Z.val env₂ k c| ≤ δz) :
    ∀ k < d.nq, (∀ n ≤ s.N, |s.q.val env₁ k n - s.q.val env₂ k n| ≤ (nd t n - nd t 0) * (β * (Lq * δx + Lqz * δz))) ∧
      ∀ n < s.N, ∀ j < s.M, |s.Q.val env₁ k (n * s.M + j) - s.Q.val env₂ k (n * s.M + j)| ≤
        (nd t n - nd t 0) * (β * (Lq * δx + Lqz * δz)) + H * (α * (Lq * δx + Lqz * δz)) := by
  have b := pre.built hs
  have hN := b.N_eq
  have hM := b.M_eq
  have hpos := pre.pos
  have hnp : d.np = d.p.rows := by simp [DaeObj.np, MXExpr.numel, pre.p]
  rw [hN, hM]
  rw [hM] at hα hβ
  rw [hN] at ht hu
  rw [hN, hM] at hx hz
  have hA : ∀ i j, T.A.e [i, j] = wA tau i j := by
    intro i j
    rw [butcher_ok] at hT; cases hT
    rfl
  have hB : ∀ k < order, T.b.e [k] = wb tau k := by
    intro k hk
    rw [butcher_ok] at hT; cases hT
    simp [NdArray.vec, nd, List.getD_eq_getElem?_getD, pre.len, hk, wb]
  simp only [hA] at hα
  rw [Finset.sum_congr rfl fun k hk => by rw [hB k (Finset.mem_range.mp hk)]] at hβ
  have hα0 : 0 ≤ α := (Finset.sum_nonneg fun _ _ => abs_nonneg _).trans (hα 0 hpos)
  rw [pre.wf.nu] at hu
  rw [hnp] at hp
  simp only [b.Z, b.u, b.p, MXExpr.sym] at hz hu hp
  intro k hk
  have hv : ∀ n < t.length - 1, ∀ j < order, |s.quad.val env₁ k (n * order + j) - s.quad.val env₂ k (n * order + j)| ≤ Lq * δx + Lqz * δz := by
    intro n hn j hj
    have hc := block_lt hn hj
    have := quad_point hcs pre b.toCore b.toCore Lq Lqz 0 lq env₁ env₂ hu (by rw [b.p]; exact hp) n j hn hj
      (fun v ξ w u p e e' h h' k hk => by
        have := lq e e' (fun i hi => by rw [h.u i hi, h'.u i hi]) (fun i hi => by rw [h.p i hi, h'.p i hi]) (by rw [h.t, h'.t])
          (fun i hi l hl => by rw [h.tdp i hi l hl, h'.tdp i hi l hl]) 0 0 (fun i hi => by
            have hi' : i < d.x.rows := by rw [← pre.wf.nx]; exact hi
            rw [h.x i hi', h'.x i hi', sub_self, abs_zero]) (fun l hl => by
            have hl' : l < d.z.rows := by rw [← pre.wf.nz]; exact hl
            rw [h.z l hl', h'.z l hl', sub_self, abs_zero]) k hk
        simpa using this) δx δz (hx _ hc) (hz _ hc) k hk
    rwa [add_zero] at this
  set κ := ∑ c ∈ Finset.range ((t.length - 1) * order), |s.quad.val env₂ k c| with hκ
  have hκ0 : 0 ≤ κ := Finset.sum_nonneg fun _ _ => abs_nonneg _
  have hv' : ∀ n < t.length - 1, ∀ j < order, |s.quad.val env₂ k (n * order + j)| ≤ κ := fun n hn j hj =>
    Finset.single_le_sum (f := fun c => |s.quad.val env₂ k c|) (fun _ _ => abs_nonneg _) (Finset.mem_range.mpr (block_lt hn hj))
  have hgrid : ∀ n ≤ t.length - 1, |s.q.val env₁ k n - s.q.val env₂ k n| ≤ (nd t n - nd t 0) * (β * (Lq * δx + Lqz * δz)) := by
    have := quad_near (nd t) (t.length - 1) order (fun n hn => (ht n hn).1) (s.q.val env₁ k) (s.q.val env₂ k) (s.quad.val env₁ k)
      (s.quad.val env₂ k) (wb tau) (fun n k => (nd t (n + 1) - nd t n) * wb tau k) 0 (Lq * δx + Lqz * δz) κ β hE hκ0 hβ (by simp)
      hv hv' (by rw [b.q_zero, b.q_zero]) (fun n hn => b.q env₁ k n hn) (fun n hn => by
        rw [b.q env₂ k n hn, Finset.mul_sum]
        congr 1
        exact Finset.sum_congr rfl fun _ _ => by ring)
    simpa using this
  refine ⟨hgrid, fun n hn j hj => ?_⟩
  rw [b.Q env₁ k n j hn hj, b.Q env₂ k n j hn hj]
  have h1 := hgrid n hn.le
  have h2 := sum_near order (fun l => s.quad.val env₁ k (n * order + l)) (fun l => s.quad.val env₂ k (n * order + l)) (wA tau j)
    (fun l => (nd t (n + 1) - nd t n) * wA tau j l) (nd t (n + 1) - nd t n) 0 (Lq * δx + Lqz * δz) κ α (sub_nonneg.mpr (ht n hn).1) hE hκ0
    (hα j hj) (by simp) (hv n hn) (hv' n hn)
  have e : ∑ l ∈ Finset.range order, s.quad.val env₂ k (n * order + l) * ((nd t (n + 1) - nd t n) * wA tau j l) =
      (nd t (n + 1) - nd t n) * ∑ l ∈ Finset.range order, s.quad.val env₂ k (n * order + l) * wA tau j l := by
    rw [Finset.mul_sum]
    exact Finset.sum_congr rfl fun _ _ => by ring
  rw [zero_mul, add_zero, e] at h2
  have h3 := h2.trans (mul_le_mul_of_nonneg_right (ht n hn).2 (mul_nonneg hα0 hE))
  rw [abs_le] at h1 h3 ⊢
  constructor <;> linarith [h1.1, h1.2, h3.1, h3.2]

/-- **C119** (inexact solutions) Two assignments of a regular model that solve the equations up to the tolerances `tol₁` and `tol₂`, with the
same inputs and parameters: a bound for the difference of the quadratures. -/
theorem C119_inexact (hcs : IsCsFunction csFunction)
    (pre : SchemePre freshI casadiPoints csFunction dae t order method tdp_fun d xdot res tau F)
    (hs : Scheme.new fresh freshI casadiPoints csFunction dae t order method tdp_fun rep = .ok s)
    (L Lz G Gz θ Lq Lqz : ℝ) (reg : RegularDae d xdot res L Lz G Gz) (lq : LipschitzQuadZ d Lq Lqz)
    (hnn : 0 ≤ Lz ∧ 0 ≤ Gz ∧ 0 ≤ Lq ∧ 0 ≤ Lqz)
    (T : ButcherTableau ℝ) (hT : butcherTableuForCollocationPoints tau = .ok T) (α β H : ℝ)
    (hα : ∀ j < s.M, ∑ k ∈ Finset.range s.M, |T.A.e [j, k]| ≤ α) (hβ : ∑ k ∈ Finset.range s.M, |T.b.e [k]| ≤ β)
    (ht : ∀ n < s.N, nd t n ≤ nd t (n + 1) ∧ nd t (n + 1) - nd t n ≤ H) (hθ : θ < 1) (hstep : L * (H * α) ≤ θ)
    (env₁ env₂ : Env ℝ) (tol₁ tol₂ ε : ℝ) (h₁ : ∀ v ∈ s.eq.vals env₁, |v| ≤ tol₁) (h₂ : ∀ v ∈ s.eq.vals env₂, |v| ≤ tol₂)
    (htol : 0 ≤ tol₁ ∧ 0 ≤ tol₂)
    (hu : ∀ n < s.N, ∀ i < d.nu, s.u.val env₁ i n = s.u.val env₂ i n)
    (hp : ∀ c < s.p.cols, ∀ i < d.np, s.p.val env₁ i c = s.p.val env₂ i c)
    (hε : 0 ≤ ε) (h0 : ∀ i < d.nx, |s.x.val env₁ i 0 - s.x.val env₂ i 0| ≤ ε) :
    let tol := tol₁ + tol₂
    let Λ := β * L / (1 - θ)
    let bound := Real.exp (Λ * (nd t s.N - nd t 0)) * (ε + (nd t s.N - nd t 0) * (β * G / (1 - θ) * tol) + s.N * tol)
    let δx := (bound + H * α * (G * tol)) / (1 - θ)
    let δz := Lz * δx + Gz * tol
    ∀ k < d.nq, (∀ n ≤ s.N, |s.q.val env₁ k n - s.q.val env₂ k n| ≤ (nd t n - nd t 0) * (β * (Lq * δx + Lqz * δz))) ∧
      ∀ n < s.N, ∀ j < s.M, |s.Q.val env₁ k (n * s.M + j) - s.Q.val env₂ k (n * s.M + j)| ≤
        (nd t n - nd t 0) * (β * (Lq * δx + Lqz * δz)) + H * (α * (Lq * δx + Lqz * δz)) := by
  intro tol Λ bound δx δz
  have b := pre.built hs
  have hpos := pre.pos
  have hN1 : 0 < s.N := by rw [b.N_eq]; have := pre.two; omega
  have h1θ : 0 < 1 - θ := by linarith
  obtain ⟨hL, hG⟩ := reg.nonneg
  obtain ⟨n1, n2, n3, n4⟩ := hnn
  have htol0 : 0 ≤ tol := add_nonneg htol.1 htol.2
  have hα0 : 0 ≤ α := (Finset.sum_nonneg fun _ _ => abs_nonneg _).trans (hα 0 (by rw [b.M_eq]; exact hpos))
  have hβ0 : 0 ≤ β := (Finset.sum_nonneg fun _ _ => abs_nonneg _).trans hβ
  have hH : 0 ≤ H := by have := ht 0 hN1; linarith [this.1, this.2]
  have mono := bound_mono (nd t) s.N (fun n hn => (ht n hn).1) Λ ε (β * G / (1 - θ) * tol) tol (by positivity) hε (by positivity) htol0
  have hb0 : 0 ≤ bound := (mono s.N le_rfl).1
  have hδx : 0 ≤ δx := by positivity
  have hδz : 0 ≤ δz := by positivity
  obtain ⟨-, key⟩ := C97_inexact fresh freshI casadiPoints csFunction dae t order method tdp_fun d xdot res tau F rep s hcs pre hs
    L Lz G Gz θ reg T hT α β H hα hβ ht hθ hstep env₁ env₂ tol₁ tol₂ ε h₁ h₂ htol hu hp hε h0
  have hle : ∀ n < s.N, (Real.exp (Λ * (nd t n - nd t 0)) * (ε + (nd t n - nd t 0) * (β * G / (1 - θ) * tol) + n * tol) +
      H * α * (G * tol)) / (1 - θ) ≤ δx := fun n hn =>
    div_le_div_of_nonneg_right (add_le_add (mono n hn.le).2 le_rfl) h1θ.le
  refine C119_sensitivity fresh freshI casadiPoints csFunction dae t order method tdp_fun d xdot res tau F rep s hcs pre hs Lq Lqz lq T hT
    α β H hα hβ ht env₁ env₂ hu hp δx δz (by positivity) (fun c hc i hi => ?_) (fun c hc k hk => ?_)
  · obtain ⟨n, j, hn, hj, rfl⟩ : ∃ n j, n < s.N ∧ j < s.M ∧ c = n * s.M + j := by
      have hM : 0 < s.M := by rw [b.M_eq]; exact hpos
      exact ⟨c / s.M, c % s.M, Nat.div_lt_of_lt_mul (by rw [Nat.mul_comm]; exact hc), Nat.mod_lt _ hM, (Nat.div_add_mod' c s.M).symm⟩
    exact ((key n hn j hj).1 i hi).2.trans (hle n hn)
  · obtain ⟨n, j, hn, hj, rfl⟩ : ∃ n j, n < s.N ∧ j < s.M ∧ c = n * s.M + j := by
      have hM : 0 < s.M := by rw [b.M_eq]; exact hpos
      exact ⟨c / s.M, c % s.M, Nat.div_lt_of_lt_mul (by rw [Nat.mul_comm]; exact hc), Nat.mod_lt _ hM, (Nat.div_add_mod' c s.M).symm⟩
    exact ((key n hn j hj).2 k hk).trans (add_le_add (mul_le_mul_of_nonneg_left (hle n hn) n1) le_rfl)

end

namespace FltC

variable (f : FltC)

section
variable (fresh freshI : String → ℕ) (casadiPoints : ℕ → String → Except PyErr (List ℝ))
    (csFunction : List (MXExpr ℝ) → List (MXExpr ℝ) → Except PyErr (CsFn ℝ))
    (dae : DaeObj ℝ) (t : List ℝ) (order : ℕ) (method : String) (tdp_fun : Option (ℝ → Mat ℝ))
    (d : DaeObj ℝ) (xdot res : MXExpr ℝ) (tau : List ℝ) (F : CsFn ℝ) (rep : Bool) (s s' : Scheme ℝ)

/-- **C119** (rounded coefficients) An assignment of the exact scheme and an assignment of the scheme with rounded coefficients, with the same
inputs and parameters, whose states and algebraic states at the collocation points differ at most by `δx` and `δz`: bounds for the
differences of the quadratures. -/
theorem C119_rounded (hcs : IsCsFunction csFunction)
    (pre : SchemePre freshI casadiPoints csFunction dae t order method tdp_fun d xdot res tau F)
    (hs : Scheme.new fresh freshI casadiPoints csFunction dae t order method tdp_fun rep = .ok s)
    (hs' : f.schemeNew fresh freshI casadiPoints csFunction dae t order method tdp_fun rep = .ok s')
    (Lq Lqz Lt : ℝ) (lq : LipschitzQuadZ d Lq Lqz) (hLt : 0 ≤ Lt) (tl : QuadTimeLipschitz d xdot tdp_fun Lt)
    (h01 : ∀ k < tau.length, nd tau k ∈ Icc (0 : ℝ) 1)
    (T T' : ButcherTableau ℝ) (hT : butcherTableuForCollocationPoints tau = .ok T) (hT' : f.butcherTableau tau = .ok T')
    (α β H α' β' R : ℝ)
    (hα : ∀ j < s.M, ∑ k ∈ Finset.range s.M, |T.A.e [j, k]| ≤ α) (hβ : ∑ k ∈ Finset.range s.M, |T.b.e [k]| ≤ β)
    (hα' : ∀ j < s.M, ∑ k ∈ Finset.range s.M, |T'.A.e [j, k] - T.A.e [j, k]| ≤ α')
    (hβ' : ∑ k ∈ Finset.range s.M, |T'.b.e [k] - T.b.e [k]| ≤ β')
    (ht : ∀ n < s.N, nd t n ≤ nd t (n + 1) ∧ nd t (n + 1) - nd t n ≤ H) (hR : ∀ n < s.N, |nd t n| ≤ R)
    (env₁ env₂ : Env ℝ) (κ : ℝ) (hκ : 0 ≤ κ) (hK : ∀ c < s.N * s.M, ∀ k < d.nq, |s'.quad.val env₂ k c| ≤ κ)
    (hu : ∀ n < s.N, ∀ i < d.nu, s.u.val env₁ i n = s.u.val env₂ i n)
    (hp : ∀ c < s.p.cols, ∀ i < d.np, s.p.val env₁ i c = s.p.val env₂ i c)
    (δx δz : ℝ) (hE : 0 ≤ Lq * δx + Lqz * δz)
    (hx : ∀ c < s.N * s.M, ∀ i < d.nx, |s.X.val env₁ i c - s'.X.val env₂ i c| ≤ δx)
    (hz : ∀ c < s.N * s.M, ∀ k < d.nz, |s.Z.val env₁ k c - s.Z.val env₂ k c| ≤ δz) :
    let ηA := ((1 + f.u) ^ 2 - 1) * (α + α') + α'
    let ηb := f.u * (β + β') + β'
    let ω := f.u * R + ((1 + f.u) ^ 3 - 1) * H
    let E := Lq * δx + Lqz * δz + Lt * ω
    ∀ k < d.nq, (∀ n ≤ s.N, |s.q.val env₁ k n - s'.q.val env₂ k n| ≤ (nd t n - nd t 0) * (β * E + ηb * κ)) ∧
      ∀ n < s.N, ∀ j < s.M, |s.Q.val env₁ k (n * s.M + j) - s'.Q.val env₂ k (n * s.M + j)| ≤
        (nd t n - nd t 0) * (β * E + ηb * κ) + H * (α * E + ηA * κ) := by
  intro ηA ηb ω E
  have b := pre.built hs
  obtain ⟨s'', hs'', b'⟩ := f.schemeNew_built (fresh := fresh) rep pre
  obtain rfl : s' = s'' := Except.ok.inj (hs'.symm.trans hs'')
  have hN := b.N_eq
  have hM := b.M_eq
  have hpos := pre.pos
  have hu0 := f.u_nonneg
  have hnp : d.np = d.p.rows := by simp [DaeObj.np, MXExpr.numel, pre.p]
  rw [hN, hM]
  rw [hM] at hα hβ hα' hβ'
  rw [hN] at ht hu hR
  rw [hN, hM] at hx hz hK
  have hA : ∀ i j, T.A.e [i, j] = wA tau i j := by
    intro i j
    rw [butcher_ok] at hT; cases hT
    rfl
  have hB : ∀ k < order, T.b.e [k] = wb tau k := by
    intro k hk
    rw [butcher_ok] at hT; cases hT
    simp [NdArray.vec, nd, List.getD_eq_getElem?_getD, pre.len, hk, wb]
  have hA' : ∀ i j, T'.A.e [i, j] = f.fA tau i j := by
    intro i j
    rw [f.butcherTableau_ok] at hT'; cases hT'
    rfl
  have hB' : ∀ k < order, T'.b.e [k] = f.fb tau k := by
    intro k hk
    rw [f.butcherTableau_ok] at hT'; cases hT'
    simp [NdArray.vec, nd, List.getD_eq_getElem?_getD, pre.len, hk, fb]
  simp only [hA] at hα
  simp only [hA, hA'] at hα'
  rw [Finset.sum_congr rfl fun k hk => by rw [hB' k (Finset.mem_range.mp hk), hB k (Finset.mem_range.mp hk)]] at hβ'
  rw [Finset.sum_congr rfl fun k hk => by rw [hB k (Finset.mem_range.mp hk)]] at hβ
  have hα0 : 0 ≤ α := (Finset.sum_nonneg fun _ _ => abs_nonneg _).trans (hα 0 hpos)
  have hα0' : 0 ≤ α' := (Finset.sum_nonneg fun _ _ => abs_nonneg _).trans (hα' 0 hpos)
  have hN1 : 0 < t.length - 1 := by have := pre.two; omega
  have hH : 0 ≤ H := by have := ht 0 hN1; linarith [this.1, this.2]
  have hR0 : 0 ≤ R := (abs_nonneg _).trans (hR 0 hN1)
  have hu2 : 0 ≤ (1 + f.u) ^ 2 - 1 := by nlinarith
  have hu3 : 0 ≤ (1 + f.u) ^ 3 - 1 := by nlinarith [mul_nonneg hu0 hu0, mul_nonneg (mul_nonneg hu0 hu0) hu0]
  have hω : 0 ≤ ω := by positivity
  have hηA : 0 ≤ ηA := by positivity
  have hE0 : 0 ≤ E := add_nonneg hE (mul_nonneg hLt hω)
  rw [pre.wf.nu] at hu
  rw [hnp] at hp
  simp only [b.Z, b.u, b.p, MXExpr.sym] at hz hu hp
  intro k hk
  have hv : ∀ n < t.length - 1, ∀ j < order, |s.quad.val env₁ k (n * order + j) - s'.quad.val env₂ k (n * order + j)| ≤ E := by
    intro n hn j hj
    have hc := block_lt hn hj
    refine quad_point hcs pre b.toCore b'.toCore Lq Lqz (Lt * ω) lq env₁ env₂ hu (by rw [b.p]; exact hp) n j hn hj
      (fun v ξ w u p e e' h h' k hk => (tl v ξ w u p _ _ e e' h h' k hk).trans (mul_le_mul_of_nonneg_left ?_ hLt)) δx δz (hx _ hc) (hz _ hc) k hk
    rw [b'.tc n j hn hj, b.tc n j hn hj]
    refine (f.time_err t n (ht n hn).1 _).trans (add_le_add (mul_le_mul_of_nonneg_left (hR n hn) hu0) (mul_le_mul_of_nonneg_left ?_ hu3))
    have h2 := h01 j (by rw [pre.len]; exact hj)
    rw [abs_of_nonneg h2.1]
    exact (mul_le_of_le_one_right (sub_nonneg.mpr (ht n hn).1) h2.2).trans (ht n hn).2
  have hv' : ∀ n < t.length - 1, ∀ j < order, |s'.quad.val env₂ k (n * order + j)| ≤ κ := fun n hn j hj => hK _ (block_lt hn hj) k hk
  have hgrid : ∀ n ≤ t.length - 1, |s.q.val env₁ k n - s'.q.val env₂ k n| ≤ (nd t n - nd t 0) * (β * E + ηb * κ) := by
    refine quad_near (nd t) (t.length - 1) order (fun n hn => (ht n hn).1) (s.q.val env₁ k) (s'.q.val env₂ k) (s.quad.val env₁ k)
      (s'.quad.val env₂ k) (wb tau) (fun n k => f.len t n * f.fb tau k) ηb E κ β hE0 hκ hβ (fun n hn => ?_)
      hv hv' (by rw [b.q_zero, b'.q_zero]) (fun n hn => b.q env₁ k n hn) (fun n hn => by
        rw [b'.q env₂ k n hn, Finset.mul_sum]
        congr 1
        exact Finset.sum_congr rfl fun _ _ => by ring)
    have hh := sub_nonneg.mpr (ht n hn).1
    have e1 : |f.len t n - (nd t (n + 1) - nd t n)| ≤ f.u * (nd t (n + 1) - nd t n) := by
      have := f.err (nd t (n + 1) - nd t n)
      rwa [abs_of_nonneg hh] at this
    refine le_trans (Finset.sum_le_sum (g := fun l => (nd t (n + 1) - nd t n) * (f.u * (|wb tau l| + |f.fb tau l - wb tau l|) +
      |f.fb tau l - wb tau l|)) fun l _ => ?_) ?_
    · rw [show f.len t n * f.fb tau l - (nd t (n + 1) - nd t n) * wb tau l =
        (f.len t n - (nd t (n + 1) - nd t n)) * f.fb tau l + (nd t (n + 1) - nd t n) * (f.fb tau l - wb tau l) by ring]
      refine (abs_add_le _ _).trans ?_
      rw [abs_mul, abs_mul, abs_of_nonneg hh]
      have h1 : |f.fb tau l| ≤ |wb tau l| + |f.fb tau l - wb tau l| := by
        have := abs_add_le (wb tau l) (f.fb tau l - wb tau l)
        rwa [add_sub_cancel] at this
      have h2 := mul_le_mul e1 h1 (abs_nonneg _) (by positivity)
      linarith
    · rw [← Finset.mul_sum]
      refine mul_le_mul_of_nonneg_left ?_ hh
      rw [Finset.sum_add_distrib, ← Finset.mul_sum, Finset.sum_add_distrib]
      exact add_le_add (mul_le_mul_of_nonneg_left (add_le_add hβ hβ') hu0) hβ'
  refine ⟨hgrid, fun n hn j hj => ?_⟩
  rw [b.Q env₁ k n j hn hj, b'.Q env₂ k n j hn hj]
  have hh := sub_nonneg.mpr (ht n hn).1
  have h1 := hgrid n hn.le
  have h2 := sum_near order (fun l => s.quad.val env₁ k (n * order + l)) (fun l => s'.quad.val env₂ k (n * order + l)) (wA tau j)
    (fun l => f.rnd (f.len t n * f.fA tau j l)) (nd t (n + 1) - nd t n) ηA E κ α hh hE0 hκ
    (hα j hj) (by
      refine le_trans (Finset.sum_le_sum fun l _ => f.coef_err t n (ht n hn).1 (wA tau j l) (f.fA tau j l) _ le_rfl) ?_
      rw [← Finset.mul_sum]
      refine mul_le_mul_of_nonneg_left ?_ hh
      rw [Finset.sum_add_distrib, ← Finset.mul_sum, Finset.sum_add_distrib]
      exact add_le_add (mul_le_mul_of_nonneg_left (add_le_add (hα j hj) (hα' j hj)) hu2) (hα' j hj)) (hv n hn) (hv' n hn)
  have h3 := h2.trans (mul_le_mul_of_nonneg_right (ht n hn).2 (by positivity))
  rw [abs_le] at h1 h3 ⊢
  constructor <;> linarith [h1.1, h1.2, h3.1, h3.2]

/-- **C119** (accuracy) The quadratures of an assignment that solves the scheme with rounded coefficients up to `tol` differ from the exact
integrals along an exact solution of the model at most by the bound of C88 plus terms that are proportional to the unit roundoff, the
errors of the tableau and the tolerance. -/
theorem C119_accuracy (hcs : IsCsFunction csFunction)
    (pre : SchemePre freshI casadiPoints csFunction dae t order method tdp_fun d xdot res tau F)
    (hs' : f.schemeNew fresh freshI casadiPoints csFunction dae t order method tdp_fun rep = .ok s')
    (hf : [fresh "x", fresh "K", fresh "Z", fresh "u", fresh "P"].Nodup)
    (L Lz G Gz Lt θ Lq Lqz Ltq : ℝ) (reg : RegularDae d xdot res L Lz G Gz) (tl : TimeLipschitz d xdot res tdp_fun Lt)
    (hsol : Solvable d xdot res) (lq : LipschitzQuadZ d Lq Lqz) (tlq : QuadTimeLipschitz d xdot tdp_fun Ltq)
    (hnn : 0 ≤ Lz ∧ 0 ≤ Gz ∧ 0 ≤ Lq ∧ 0 ≤ Lqz ∧ 0 ≤ Ltq)
    (hd : tau.Nodup) (h01 : ∀ k < tau.length, nd tau k ∈ Icc (0 : ℝ) 1)
    (T T' : ButcherTableau ℝ) (hT : butcherTableuForCollocationPoints tau = .ok T) (hT' : f.butcherTableau tau = .ok T')
    (α β H α' β' R : ℝ)
    (hα : ∀ j < order, ∑ k ∈ Finset.range order, |T.A.e [j, k]| ≤ α) (hβ : ∑ k ∈ Finset.range order, |T.b.e [k]| ≤ β)
    (hα' : ∀ j < order, ∑ k ∈ Finset.range order, |T'.A.e [j, k] - T.A.e [j, k]| ≤ α')
    (hβ' : ∑ k ∈ Finset.range order, |T'.b.e [k] - T.b.e [k]| ≤ β')
    (ht : ∀ n < t.length - 1, nd t n ≤ nd t (n + 1) ∧ nd t (n + 1) - nd t n ≤ H) (hR : ∀ n < t.length - 1, |nd t n| ≤ R)
    (hθ : θ < 1) (hstep : L * (H * α) ≤ θ)
    (env : Env ℝ) (tol ε κ κq : ℝ) (heq : ∀ v ∈ s'.eq.vals env, |v| ≤ tol) (htol : 0 ≤ tol)
    (hrep : rep = true → ∀ c < (t.length - 1) * order, ∀ i < d.np, s'.p.val env i c = s'.p.val env i 0)
    (hκ : 0 ≤ κ) (hK : ∀ c < (t.length - 1) * order, ∀ i < d.nx, |s'.Kd.val env i c| ≤ κ)
    (hκq : 0 ≤ κq) (hKq : ∀ c < (t.length - 1) * order, ∀ k < d.nq, |s'.quad.val env k c| ≤ κq)
    (y Y : ℕ → ℝ → ℝ) (v ζ w : ℕ → ℕ → ℝ → ℝ)
    (ex : ExactDae d xdot res tdp_fun t (s'.u.val env) (fun i => s'.p.val env i 0) y v ζ)
    (exq : ExactQuadratureZ d xdot tdp_fun t (s'.u.val env) (fun i => s'.p.val env i 0) y ζ Y w) (B Bq : ℝ)
    (hsm : ∀ n < t.length - 1, ∀ i < d.nx, ContDiffOn ℝ order (v n i) (Icc (nd t n) (nd t (n + 1))))
    (hB : ∀ n < t.length - 1, ∀ i < d.nx, ∀ τ ∈ Icc (nd t n) (nd t (n + 1)),
      |iteratedDerivWithin order (v n i) (Icc (nd t n) (nd t (n + 1))) τ| ≤ B) (hB0 : 0 ≤ B)
    (hsmq : ∀ n < t.length - 1, ∀ k < d.nq, ContDiffOn ℝ order (w n k) (Icc (nd t n) (nd t (n + 1))))
    (hBq : ∀ n < t.length - 1, ∀ k < d.nq, ∀ τ ∈ Icc (nd t n) (nd t (n + 1)),
      |iteratedDerivWithin order (w n k) (Icc (nd t n) (nd t (n + 1))) τ| ≤ Bq)
    (hε : 0 ≤ ε) (h0 : ∀ i < d.nx, |s'.x.val env i 0 - y i (nd t 0)| ≤ ε) :
    let ηA := ((1 + f.u) ^ 2 - 1) * (α + α') + α'
    let ηb := ((1 + f.u) ^ 2 - 1) * (β + β') + β'
    let ηq := f.u * (β + β') + β'
    let ω := f.u * R + ((1 + f.u) ^ 3 - 1) * H
    let g := G * (tol + Lt * ω) + L * (H * ηA * κ)
    let Λ := β * L / (1 - θ)
    let D := B * H ^ order / ((order - 1).factorial : ℝ)
    let Dq := Bq * H ^ order / ((order - 1).factorial : ℝ)
    let N := t.length - 1
    let ex := Real.exp (Λ * (nd t N - nd t 0))
    let E := (ex * (ε + (nd t N - nd t 0) * ((1 + β + Λ * H * (1 + α)) * D)) + H * (1 + α) * D) / (1 - θ)
    let δ := (ex * ((nd t N - nd t 0) * (β * g / (1 - θ) + ηb * κ) + N * tol) + H * α * g) / (1 - θ) + H * ηA * κ
    let δz := Lz * δ + Gz * (tol + Lt * ω)
    ∀ n ≤ N, ∀ k < d.nq, |s'.q.val env k n - (Y k (nd t n) - Y k (nd t 0))| ≤ (nd t n - nd t 0) *
      (β * (Lq * E + Lqz * (Lz * E)) + (1 + β) * Dq + (β * (Lq * δ + Lqz * δz + Ltq * ω) + ηq * κq)) := by
  intro ηA ηb ηq ω g Λ D Dq N exN E δ δz n hn k hk
  obtain ⟨n1, n2, n3, n4, n5⟩ := hnn
  obtain ⟨s, s'', hs, hs'', e1, e2, e3, e4, e5, e6, e7, -⟩ := f.C118_constructed fresh freshI casadiPoints csFunction dae t order method
    tdp_fun d xdot res tau F rep pre
  obtain rfl : s' = s'' := Except.ok.inj (hs'.symm.trans hs'')
  have b := pre.built hs
  have hN : s.N = N := b.N_eq
  have hM := b.M_eq
  have ix := reg.indexOne pre.wf.res_cols
  have hpos := pre.pos
  have hu0 := f.u_nonneg
  have h1θ : 0 < 1 - θ := by linarith
  obtain ⟨hL, hG⟩ := reg.nonneg
  have hLt := tl.nonneg
  have hα0 : 0 ≤ α := (Finset.sum_nonneg fun _ _ => abs_nonneg _).trans (hα 0 hpos)
  have hβ0 : 0 ≤ β := (Finset.sum_nonneg fun _ _ => abs_nonneg _).trans hβ
  have hα0' : 0 ≤ α' := (Finset.sum_nonneg fun _ _ => abs_nonneg _).trans (hα' 0 hpos)
  have hβ0' : 0 ≤ β' := (Finset.sum_nonneg fun _ _ => abs_nonneg _).trans hβ'
  have hN1 : 0 < t.length - 1 := by have := pre.two; omega
  have hH : 0 ≤ H := by have := ht 0 hN1; linarith [this.1, this.2]
  have hR0 : 0 ≤ R := (abs_nonneg _).trans (hR 0 hN1)
  have hu2 : 0 ≤ (1 + f.u) ^ 2 - 1 := by nlinarith
  have hu3 : 0 ≤ (1 + f.u) ^ 3 - 1 := by nlinarith [mul_nonneg hu0 hu0, mul_nonneg (mul_nonneg hu0 hu0) hu0]
  have hηA : 0 ≤ ηA := by positivity
  have hηb : 0 ≤ ηb := by positivity
  have hω : 0 ≤ ω := by positivity
  have hg : 0 ≤ g := by positivity
  have hD : 0 ≤ D := by positivity
  have hΛ : 0 ≤ Λ := by positivity
  rw [e7] at hrep
  rw [e4] at hK
  rw [e6, e7] at ex exq
  rw [e3] at h0
  obtain ⟨env', heq', hx', hu', hp'⟩ := C88_exists fresh freshI casadiPoints csFunction dae t order method tdp_fun d xdot res tau F rep s
    hcs pre hs hf L Lz θ ix hsol hθ T hT (by
      intro n hn j hj
      rw [hN] at hn
      rw [hM] at hj ⊢
      refine le_trans (mul_le_mul_of_nonneg_left ?_ ix.nonneg) hstep
      rw [abs_of_nonneg (sub_nonneg.mpr (ht n hn).1)]
      exact mul_le_mul (ht n hn).2 (hα j hj) (Finset.sum_nonneg fun _ _ => abs_nonneg _)
        ((sub_nonneg.mpr (ht n hn).1).trans (ht n hn).2)) env (by rw [hN, hM]; exact hrep) (fun i => s.x.val env i 0)
  have hu'' : s.u.val env' = s.u.val env := by
    funext i n
    exact hu' i n
  have hp'' : (fun i => s.p.val env' i 0) = fun i => s.p.val env i 0 := funext fun i => hp' i 0
  have k1 := (f.C118_states fresh freshI casadiPoints csFunction dae t order method tdp_fun d xdot res tau F rep s s' hcs pre hs hs'
    L Lz G Gz Lt θ reg tl h01 T T' hT hT' α β H α' β' R (by rw [hM]; exact hα) (by rw [hM]; exact hβ) (by rw [hM]; exact hα')
    (by rw [hM]; exact hβ') (by rw [hN]; exact ht) (by rw [hN]; exact hR) hθ hstep env' env 0 tol 0 κ
    (fun v hv => by rw [heq' v hv, abs_zero]) heq ⟨le_rfl, htol⟩ hκ (by rw [hN, hM]; exact hK)
    (fun n _ i _ => hu' i n) (fun n _ i _ => hp' i n) le_rfl (fun i hi => by rw [hx' i, sub_self, abs_zero])).2
  have k2 := (C88_convergence fresh freshI casadiPoints csFunction dae t order method tdp_fun d xdot res tau F rep s hcs pre hs hf
    L Lz θ ix hd h01 T hT α β H (by rw [hM]; exact hα) (by rw [hM]; exact hβ) (by rw [hN]; exact ht) hθ hstep env'
    heq' y v ζ (by rw [hu'', hp'']; exact ex) B ε
    (by rw [hN, hM]; exact hsm) (by rw [hN, hM]; exact hB) hB0 hε (fun i hi => by rw [hx' i]; exact h0 i hi)).2
  rw [hN] at k1 k2
  rw [hM] at k1 k2
  have m1 := bound_mono (nd t) N (fun n hn => (ht n hn).1) Λ ε ((1 + β + Λ * H * (1 + α)) * D) 0 hΛ hε (by positivity) le_rfl
  have m2 := bound_mono (nd t) N (fun n hn => (ht n hn).1) Λ 0 (β * g / (1 - θ) + ηb * κ) tol hΛ le_rfl (by positivity) htol
  simp only [mul_zero, add_zero] at m1
  simp only [zero_add] at m2
  have hE0 : 0 ≤ E := div_nonneg (add_nonneg (m1 N le_rfl).1 (by positivity)) h1θ.le
  have hδ0 : 0 ≤ δ := add_nonneg (div_nonneg (add_nonneg (m2 N le_rfl).1 (by positivity)) h1θ.le) (by positivity)
  have hδz0 : 0 ≤ δz := by positivity
  have hle1 : ∀ n < N, (Real.exp (Λ * (nd t n - nd t 0)) * (ε + (nd t n - nd t 0) * ((1 + β + Λ * H * (1 + α)) * D)) +
      H * (1 + α) * D) / (1 - θ) ≤ E := fun n hn => div_le_div_of_nonneg_right (add_le_add (m1 n hn.le).2 le_rfl) h1θ.le
  have hle2 : ∀ n < N, (Real.exp (Λ * (nd t n - nd t 0)) * ((nd t n - nd t 0) * (β * g / (1 - θ) + ηb * κ) + n * tol) + H * α * g) / (1 - θ) +
      H * ηA * κ ≤ δ := fun n hn => add_le_add (div_le_div_of_nonneg_right (add_le_add (m2 n hn.le).2 le_rfl) h1θ.le) le_rfl
  simp only [zero_add] at k1
  have hsplit : ∀ c < N * order, ∃ n j, n < N ∧ j < order ∧ c = n * order + j := fun c hc =>
    ⟨c / order, c % order, Nat.div_lt_of_lt_mul (by rw [Nat.mul_comm]; exact hc), Nat.mod_lt _ hpos, (Nat.div_add_mod' c order).symm⟩
  have h1 := (f.C119_rounded fresh freshI casadiPoints csFunction dae t order method tdp_fun d xdot res tau F rep s s' hcs pre hs hs'
    Lq Lqz Ltq lq n5 tlq h01 T T' hT hT' α β H α' β' R (by rw [hM]; exact hα) (by rw [hM]; exact hβ) (by rw [hM]; exact hα')
    (by rw [hM]; exact hβ') (by rw [hN]; exact ht) (by rw [hN]; exact hR) env' env κq hκq (by rw [hN, hM]; exact hKq)
    (fun n _ i _ => hu' i n) (fun n _ i _ => hp' i n) δ δz (by positivity) (by
      rw [hN, hM]
      intro c hc i hi
      obtain ⟨n, j, hn, hj, rfl⟩ := hsplit c hc
      exact ((k1 n hn j hj).1 i hi).2.trans (hle2 n hn)) (by
      rw [hN, hM]
      intro c hc i hi
      obtain ⟨n, j, hn, hj, rfl⟩ := hsplit c hc
      exact ((k1 n hn j hj).2 i hi).trans (add_le_add (mul_le_mul_of_nonneg_left (hle2 n hn) n1) le_rfl)) k hk).1 n (by rw [hN]; exact hn)
  have h2 := C88_quadrature fresh freshI casadiPoints csFunction dae t order method tdp_fun d xdot res tau F rep s hcs pre hs hf Lq Lqz lq
    hd h01 T hT β H (by rw [hM]; exact hβ) (by rw [hN]; exact ht) env' heq' y ζ Y w (by rw [hu'', hp'']; exact exq) Bq E (Lz * E)
    (by rw [hN, hM]; exact hsmq) (by rw [hN, hM]; exact hBq) (by
      rw [hN, hM]
      exact fun n hn j hj i hi => ((k2 n hn j hj).1 i hi).trans (hle1 n hn)) (by
      rw [hN, hM]
      exact fun n hn j hj k hk => ((k2 n hn j hj).2.2 k hk).trans (mul_le_mul_of_nonneg_left (hle1 n hn) n1)) (by positivity) n
    (by rw [hN]; exact hn) k hk
  rw [hM] at h2
  rw [abs_sub_comm] at h1
  have h3 : s'.q.val env k n - (Y k (nd t n) - Y k (nd t 0)) =
    (s'.q.val env k n - s.q.val env' k n) + (s.q.val env' k n - (Y k (nd t n) - Y k (nd t 0))) := by ring
  rw [h3]
  refine (abs_add_le _ _).trans ((add_le_add h1 h2).trans (le_of_eq ?_))
  simp only [Dq, ηq, ω]
  ring

end

end FltC

/-! ## Non-vacuity -/

/-- The quadrature expression of `x' = -z`, `0 = z - x` is `z`. -/
theorem loop_lipschitzQuad (freshI : String → ℕ) : LipschitzQuadZ (loopD freshI) 0 1 ∧
    QuadTimeLipschitz (loopD freshI) (.sym (freshI "xdot") 1) none 0 := by
  refine ⟨fun e e' _ _ _ _ δ η _ hη k _ => ?_, fun v ξ w u p τ τ' e e' h h' k _ => ?_⟩
  · have h : |e 1 0 0 - e' 1 0 0| ≤ η := hη 0 Nat.one_pos
    show |e 1 0 0 - e' 1 0 0| ≤ _
    rwa [zero_mul, zero_add, one_mul]
  · have h1 : e 1 0 0 = e' 1 0 0 := (h.z 0 Nat.one_pos).trans (h'.z 0 Nat.one_pos).symm
    show |e 1 0 0 - e' 1 0 0| ≤ _
    rw [h1, sub_self, abs_zero, zero_mul]

/-- Midpoint rule for `x' = -z`, `0 = z - x` with the quadrature of `z` on steps of at most 1: the quadratures of two assignments with the same
initial state that solve the equations exactly and up to `tol`, and the quadratures with coefficients in double precision. -/
example (freshI : String → ℕ) (hI : 7 ≤ freshI "xdot") (t : List ℝ) (two : 2 ≤ t.length) (h0 : nd t 0 = 0)
    (ht : ∀ n < t.length - 1, nd t n ≤ nd t (n + 1) ∧ nd t (n + 1) - nd t n ≤ 1) : ∃ s s',
    Scheme.new exFresh freshI (fun _ _ => .ok [1 / 2]) idealCsFunction loopO t 1 "legendre" none = .ok s ∧
    FltC.doubleC.schemeNew exFresh freshI (fun _ _ => .ok [1 / 2]) idealCsFunction loopO t 1 "legendre" none = .ok s' ∧
    (∀ env env' tol, 0 ≤ tol → (∀ v ∈ s.eq.vals env, v = 0) → (∀ v ∈ s.eq.vals env', |v| ≤ tol) → s.x.val env 0 0 = s.x.val env' 0 0 →
      ∀ n ≤ s.N, |s.q.val env 0 n - s.q.val env' 0 n| ≤
        nd t n * (2 * (Real.exp (2 * nd t s.N) * (nd t s.N * (4 * tol) + s.N * tol)) + 3 * tol)) ∧
    ∀ env env' δ κ, 0 ≤ δ → 0 ≤ κ → (∀ c < s.N, |s'.quad.val env' 0 c| ≤ κ) → (∀ c < s.N, |s.Z.val env 0 c - s.Z.val env' 0 c| ≤ δ) →
      ∀ n ≤ s.N, |s.q.val env 0 n - s'.q.val env' 0 n| ≤ nd t n * (δ + κ / 2 ^ 49) := by
  obtain ⟨F, pre⟩ := loop_pre freshI hI t [1 / 2] two (by simp)
  obtain ⟨s, s', hs, hs', -⟩ := FltC.doubleC.C118_constructed exFresh freshI _ _ _ _ _ _ _ _ _ _ _ _ false pre
  have b := pre.built hs
  have hN : s.N = t.length - 1 := b.N_eq
  have hM : s.M = 1 := b.M_eq
  obtain ⟨T, hT, hA, hB, -⟩ := C09_butcher_consistent ([1 / 2] : List ℝ) (by simp) (by simp)
  obtain ⟨T1, hT1, -, -, -, hc, -⟩ := C08_butcher_exact ([1 / 2] : List ℝ) (by simp)
  rw [hT] at hT1
  cases hT1
  have hA0 : T.A.e [0, 0] = 1 / 2 := by
    have := hA 0 (by simp)
    rw [hc 0 (by simp)] at this
    simpa using this
  have hB0 : T.b.e [0] = 1 := by simpa using hB
  obtain ⟨T2, T', h2, hT', -, -, -, herr⟩ := FltC.doubleC.C116_tableau [1 / 2] (by simp)
  rw [hT] at h2
  cases h2
  obtain ⟨e1, e2⟩ := herr 0 (by simp)
  have e1 := e1 0 (by simp)
  have du : FltC.doubleC.u = 1 / 2 ^ 53 := rfl
  rw [hA0, du] at e1
  rw [hB0, du] at e2
  norm_num [nd] at e1 e2
  have hα : ∀ j < s.M, ∑ k ∈ Finset.range s.M, |T.A.e [j, k]| ≤ 1 / 2 := fun j hj => by
    rw [hM] at hj ⊢
    obtain rfl : j = 0 := by omega
    rw [Finset.sum_range_one, hA0]
    norm_num
  have hβ : ∑ k ∈ Finset.range s.M, |T.b.e [k]| ≤ 1 := by rw [hM, Finset.sum_range_one, hB0, abs_one]
  obtain ⟨lq, tlq⟩ := loop_lipschitzQuad freshI
  refine ⟨s, s', hs, hs', fun env env' tol htol h h' hx n hn => ?_, fun env env' δ κ hδ hκ hK hz n hn => ?_⟩
  · have key := (C119_inexact exFresh freshI _ _ _ _ _ _ _ _ _ _ _ _ false s idealCsFunction_spec pre hs 1 1 2 1 (1 / 2) 0 1
      (loop_regular freshI) lq (by norm_num) T hT (1 / 2) 1 1 hα hβ (by rw [hN]; exact ht) (by norm_num) (by norm_num) env env' 0 tol 0
      (fun v hv => by rw [h v hv, abs_zero]) h' ⟨le_rfl, htol⟩ (fun n _ i hi => absurd hi (Nat.not_lt_zero _))
      (fun c _ i hi => absurd hi (Nat.not_lt_zero _)) le_rfl (fun i hi => by
        obtain rfl : i = 0 := by change i < 1 at hi; omega
        rw [hx, sub_self, abs_zero]) 0 Nat.one_pos).1 n hn
    rw [h0] at key
    refine key.trans (le_of_eq ?_)
    rw [show (1 * 1 / (1 - 1 / 2) : ℝ) = 2 by norm_num, sub_zero, sub_zero]
    ring
  · have key := (FltC.doubleC.C119_rounded exFresh freshI _ _ _ _ _ _ _ _ _ _ _ _ false s s' idealCsFunction_spec pre hs hs' 0 1 0 lq le_rfl
      tlq (fun k hk => by
        obtain rfl : k = 0 := by simpa using hk
        norm_num [nd]) T T' hT hT' (1 / 2) 1 1 (1 / 2 ^ 51) (1 / 2 ^ 50) (∑ n ∈ Finset.range (t.length - 1), |nd t n|) hα hβ (fun j hj => by
        rw [hM] at hj ⊢
        obtain rfl : j = 0 := by omega
        rw [Finset.sum_range_one, hA0]
        exact e1.trans (by norm_num)) (by
        rw [hM, Finset.sum_range_one, hB0]
        exact e2.trans (by norm_num)) (by rw [hN]; exact ht) (by
        rw [hN]
        exact fun n hn => Finset.single_le_sum (f := fun n => |nd t n|) (fun _ _ => abs_nonneg _) (Finset.mem_range.mpr hn))
      env env' κ hκ (fun c hc k hk => by
        obtain rfl : k = 0 := by change k < 1 at hk; omega
        rw [hM, Nat.mul_one] at hc
        exact hK c hc) (fun n _ i hi => absurd hi (Nat.not_lt_zero _)) (fun c _ i hi => absurd hi (Nat.not_lt_zero _))
      (∑ c ∈ Finset.range s.N, |s.X.val env 0 c - s'.X.val env' 0 c|) δ (by rw [zero_mul, zero_add, one_mul]; exact hδ) (fun c hc i hi => by
        obtain rfl : i = 0 := by change i < 1 at hi; omega
        rw [hM, Nat.mul_one] at hc
        exact Finset.single_le_sum (f := fun c => |s.X.val env 0 c - s'.X.val env' 0 c|) (fun _ _ => abs_nonneg _)
          (Finset.mem_range.mpr hc)) (fun c hc k hk => by
        obtain rfl : k = 0 := by change k < 1 at hk; omega
        rw [hM, Nat.mul_one] at hc
        exact hz c hc) 0 Nat.one_pos).1 n hn
    have htn : 0 ≤ nd t n := by
      clear key
      rw [hN] at hn
      induction n with
      | zero => exact h0.ge
      | succ n ih => have := ih (by omega); have := (ht n (by omega)).1; linarith
    rw [h0, du, sub_zero] at key
    refine key.trans (mul_le_mul_of_nonneg_left ?_ htn)
    norm_num
    linarith

end CE
