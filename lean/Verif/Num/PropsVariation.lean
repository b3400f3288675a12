import Verif.Num.PropsSymplectic
import Verif.Num.PropsSens3

/-!
# Property C133: variations and bilinear forms

Two solutions of a model that are infinitesimally close to the same solution, with the same inputs and parameters, are two
variations of it.  A bilinear form of two variations which every pair of solutions of the model preserves (for a Hamiltonian model
the symplectic form) is preserved by collocation with Gauss nodes.
-/

open Filter Topology

namespace CE

/-- Assignments `e ε` on which the residual vanishes, with inputs, parameters, time and time-dependent parameters that do not depend
on `ε`; the states have the derivatives `v` and their time derivatives the derivatives `w`. -/
structure Variation (d : DaeObj ℝ) (xdot res : MXExpr ℝ) (tdp_fun : Option (ℝ → Mat ℝ)) (e : ℝ → Env ℝ) (v w : ℕ → ℝ) : Prop where
  x : ∀ i < d.nx, HasDerivAt (fun ε => d.x.val (e ε) i 0) (v i) 0
  xdot : ∀ i < d.nx, HasDerivAt (fun ε => xdot.val (e ε) i 0) (w i) 0
  z : ∀ i < d.nz, DifferentiableAt ℝ (fun ε => d.z.val (e ε) i 0) 0
  u : ∀ᶠ ε in 𝓝 0, ∀ i < d.nu, d.u.val (e ε) i 0 = d.u.val (e 0) i 0
  p : ∀ᶠ ε in 𝓝 0, ∀ i < d.np, d.p.val (e ε) i 0 = d.p.val (e 0) i 0
  t : ∀ ε, d.t.val (e ε) 0 0 = d.t.val (e 0) 0 0
  tdp : ∀ f, tdp_fun = some f → ∀ ε, ∀ i < d.tdp.rows, ∀ j < d.tdp.cols, d.tdp.val (e ε) i j = (f (d.t.val (e 0) 0 0)).e i j
  residual : ∀ᶠ ε in 𝓝 0, ResidualZero res (e ε)

/-- Two assignments give the quantities of the model the same values. -/
structure SamePoint (d : DaeObj ℝ) (xdot : MXExpr ℝ) (e e' : Env ℝ) : Prop where
  x : ∀ i < d.nx, d.x.val e i 0 = d.x.val e' i 0
  xdot : ∀ i < d.nx, xdot.val e i 0 = xdot.val e' i 0
  z : ∀ i < d.nz, d.z.val e i 0 = d.z.val e' i 0
  u : ∀ i < d.nu, d.u.val e i 0 = d.u.val e' i 0
  p : ∀ i < d.np, d.p.val e i 0 = d.p.val e' i 0
  t : d.t.val e 0 0 = d.t.val e' 0 0

/-- The bilinear form with matrix `S` of two variations of the same solution of the model does not change with time:
`sum S[i,j]*(w1[i]*v2[j] + v1[i]*w2[j]) = 0`. -/
def VariationLaw (d : DaeObj ℝ) (xdot res : MXExpr ℝ) (tdp_fun : Option (ℝ → Mat ℝ)) (S : ℕ → ℕ → ℝ) : Prop :=
  ∀ e₁ e₂ v₁ w₁ v₂ w₂, Variation d xdot res tdp_fun e₁ v₁ w₁ → Variation d xdot res tdp_fun e₂ v₂ w₂ → SamePoint d xdot (e₁ 0) (e₂ 0) →
    ∑ i ∈ Finset.range d.nx, ∑ j ∈ Finset.range d.nx, S i j * (w₁ i * v₂ j + v₁ i * w₂ j) = 0

/-- The variables of a scheme solve the collocation equations and depend differentiably on a parameter on which inputs and
parameters do not depend. -/
structure VariationVars (s : Scheme ℝ) (d : DaeObj ℝ) (rep : Bool) (env : ℝ → Env ℝ) : Prop where
  eq : ∀ᶠ ε in 𝓝 0, ∀ v ∈ s.eq.vals (env ε), v = 0
  x : ∀ n ≤ s.N, ∀ i < d.nx, DifferentiableAt ℝ (fun ε => s.x.val (env ε) i n) 0
  k : ∀ c < s.N * s.M, ∀ i < d.nx, DifferentiableAt ℝ (fun ε => s.Kd.val (env ε) i c) 0
  z : ∀ c < s.N * s.M, ∀ i < d.nz, DifferentiableAt ℝ (fun ε => s.Z.val (env ε) i c) 0
  u : ∀ᶠ ε in 𝓝 0, ∀ n < s.N, ∀ i < d.nu, s.u.val (env ε) i n = s.u.val (env 0) i n
  p : ∀ᶠ ε in 𝓝 0, ∀ c < (if rep then s.N * s.M else 1), ∀ i < d.np, s.p.val (env ε) i c = s.p.val (env 0) i c

/-- The variables of a scheme have the same values under two assignments. -/
structure SameVars (s : Scheme ℝ) (d : DaeObj ℝ) (rep : Bool) (env env' : Env ℝ) : Prop where
  x : ∀ n ≤ s.N, ∀ i < d.nx, s.x.val env i n = s.x.val env' i n
  k : ∀ c < s.N * s.M, ∀ i < d.nx, s.Kd.val env i c = s.Kd.val env' i c
  z : ∀ c < s.N * s.M, ∀ i < d.nz, s.Z.val env i c = s.Z.val env' i c
  u : ∀ n < s.N, ∀ i < d.nu, s.u.val env i n = s.u.val env' i n
  p : ∀ c < (if rep then s.N * s.M else 1), ∀ i < d.np, s.p.val env i c = s.p.val env' i c

/-- The product of two steps with a symplectic tableau. -/
theorem symplectic_step {M : ℕ} (b : ℕ → ℝ) (A : ℕ → ℕ → ℝ)
    (h : ∀ k < M, ∀ l < M, b k * A k l + b l * A l k = b k * b l) (τ x₁ x₂ : ℝ) (k₁ k₂ : ℕ → ℝ) :
    (x₁ + τ * ∑ k ∈ Finset.range M, k₁ k * b k) * (x₂ + τ * ∑ k ∈ Finset.range M, k₂ k * b k) = x₁ * x₂ +
      τ * ∑ k ∈ Finset.range M, b k * (k₁ k * (x₂ + τ * ∑ l ∈ Finset.range M, k₂ l * A k l) +
        (x₁ + τ * ∑ l ∈ Finset.range M, k₁ l * A k l) * k₂ k) := by
  have e1 : ∑ k ∈ Finset.range M, b k * (k₁ k * (x₂ + τ * ∑ l ∈ Finset.range M, k₂ l * A k l) +
        (x₁ + τ * ∑ l ∈ Finset.range M, k₁ l * A k l) * k₂ k) =
      (∑ k ∈ Finset.range M, k₁ k * b k) * x₂ + x₁ * (∑ k ∈ Finset.range M, k₂ k * b k) +
      τ * (∑ k ∈ Finset.range M, ∑ l ∈ Finset.range M, b k * A k l * (k₁ k * k₂ l) +
        ∑ k ∈ Finset.range M, ∑ l ∈ Finset.range M, b k * A k l * (k₁ l * k₂ k)) := by
    simp only [Finset.mul_sum, Finset.sum_mul, ← Finset.sum_add_distrib]
    refine Finset.sum_congr rfl fun k _ => ?_
    simp only [mul_add, add_mul, Finset.mul_sum, Finset.sum_mul, Finset.sum_add_distrib]
    have e2 : ∀ c : ℕ → ℝ, ∀ c' : ℕ → ℝ, (∀ l, c l = c' l) → ∑ l ∈ Finset.range M, c l = ∑ l ∈ Finset.range M, c' l :=
      fun c c' hc => Finset.sum_congr rfl fun l _ => hc l
    rw [e2 (fun l => b k * (k₁ k * (τ * (k₂ l * A k l)))) (fun l => τ * (b k * A k l * (k₁ k * k₂ l))) (fun l => by ring),
      e2 (fun l => b k * (τ * (k₁ l * A k l) * k₂ k)) (fun l => τ * (b k * A k l * (k₁ l * k₂ k))) (fun l => by ring)]
    ring
  have e3 : ∑ k ∈ Finset.range M, ∑ l ∈ Finset.range M, b k * A k l * (k₁ k * k₂ l) +
        ∑ k ∈ Finset.range M, ∑ l ∈ Finset.range M, b k * A k l * (k₁ l * k₂ k) =
      (∑ k ∈ Finset.range M, k₁ k * b k) * ∑ k ∈ Finset.range M, k₂ k * b k := by
    rw [Finset.sum_comm (f := fun k l => b k * A k l * (k₁ l * k₂ k)), ← Finset.sum_add_distrib, Finset.sum_mul_sum]
    refine Finset.sum_congr rfl fun k hk => ?_
    rw [← Finset.sum_add_distrib]
    refine Finset.sum_congr rfl fun l hl => ?_
    linear_combination (k₁ k * k₂ l) * h k (Finset.mem_range.mp hk) l (Finset.mem_range.mp hl)
  rw [e1, e3]
  ring

section

variable (fresh fresh' freshI freshI' : String → ℕ) (casadiPoints : ℕ → String → Except PyErr (List ℝ))
    (csFunction : List (MXExpr ℝ) → List (MXExpr ℝ) → Except PyErr (CsFn ℝ))
    (dae dae' : DaeObj ℝ) (t : List ℝ) (order : ℕ) (method : String) (tdp_fun : Option (ℝ → Mat ℝ))
    (d d' : DaeObj ℝ) (xdot res xdot' res' : MXExpr ℝ) (tau : List ℝ) (F F' : CsFn ℝ) (rep : Bool) (s : Scheme ℝ)

/-- **C133** With Gauss nodes, a bilinear form of two variations that the model preserves is preserved by the solutions of the
collocation equations: it has the same value at all interval bounds. -/
theorem C133_scheme (hcs : IsCsFunction csFunction)
    (pre : SchemePre freshI casadiPoints csFunction dae t order method tdp_fun d xdot res tau F)
    (hs : Scheme.new fresh freshI casadiPoints csFunction dae t order method tdp_fun rep = .ok s)
    (hd : tau.Nodup) (hg : IsGauss tau) (S : ℕ → ℕ → ℝ) (law : VariationLaw d xdot res tdp_fun S)
    (env₁ env₂ : ℝ → Env ℝ) (h₁ : VariationVars s d rep env₁) (h₂ : VariationVars s d rep env₂) (h0 : SameVars s d rep (env₁ 0) (env₂ 0)) :
    ∀ n ≤ s.N, ∑ i ∈ Finset.range d.nx, ∑ j ∈ Finset.range d.nx,
        S i j * (deriv (fun ε => s.x.val (env₁ ε) i n) 0 * deriv (fun ε => s.x.val (env₂ ε) j n) 0) =
      ∑ i ∈ Finset.range d.nx, ∑ j ∈ Finset.range d.nx,
        S i j * (deriv (fun ε => s.x.val (env₁ ε) i 0) 0 * deriv (fun ε => s.x.val (env₂ ε) j 0) 0) := by
  have b := pre.built hs
  have hpos := pre.pos
  have hnp : d.np = d.p.rows := by simp [DaeObj.np, MXExpr.numel, pre.p]
  have hsymp : ∀ k < order, ∀ l < order, wb tau k * wA tau k l + wb tau l * wA tau l k = wb tau k * wb tau l := by
    obtain ⟨T, hT, h75⟩ := C75_symplectic tau hd
    have hb : ∀ k < tau.length, T.b.e [k] = wb tau k := by
      intro k hk
      rw [butcher_ok] at hT; cases hT
      simp only [NdArray.vec, List.headD_cons, nd_map_range _ hk, wb]
    have hA : ∀ i j, T.A.e [i, j] = wA tau i j := by
      intro i j
      rw [butcher_ok] at hT; cases hT
      rfl
    intro k hk l hl
    rw [← pre.len] at hk hl
    have := h75.mpr hg k hk l hl
    rwa [hb k hk, hb l hl, hA, hA] at this
  -- derivatives of the states at the collocation points and at the end of an interval
  have hX : ∀ env, VariationVars s d rep env → ∀ n < t.length - 1, ∀ j < order, ∀ i < d.nx,
      HasDerivAt (fun ε => s.X.val (env ε) i (n * order + j)) (deriv (fun ε => s.x.val (env ε) i n) 0 + (nd t (n + 1) - nd t n) *
        ∑ k ∈ Finset.range order, deriv (fun ε => s.Kd.val (env ε) i (n * order + k)) 0 * wA tau j k) 0 := by
    intro env h n hn j hj i hi
    refine (hasDerivAt_step (h.x n (by rw [b.N_eq]; omega) i hi).hasDerivAt fun k hkl =>
      (h.k (n * order + k) (by rw [b.N_eq, b.M_eq]; exact block_lt hn hkl) i hi).hasDerivAt).congr_of_eventuallyEq
        (Eventually.of_forall fun ε => ?_)
    simp only [b.X (env ε) i n j hn hj, b.x, b.Kd]
    rfl
  have hend : ∀ env, VariationVars s d rep env → ∀ n < t.length - 1, ∀ i < d.nx,
      deriv (fun ε => s.x.val (env ε) i (n + 1)) 0 = deriv (fun ε => s.x.val (env ε) i n) 0 + (nd t (n + 1) - nd t n) *
        ∑ k ∈ Finset.range order, deriv (fun ε => s.Kd.val (env ε) i (n * order + k)) 0 * wb tau k := by
    intro env h n hn i hi
    refine HasDerivAt.deriv ?_
    refine (hasDerivAt_step (h.x n (by rw [b.N_eq]; omega) i hi).hasDerivAt fun k hkl =>
      (h.k (n * order + k) (by rw [b.N_eq, b.M_eq]; exact block_lt hn hkl) i hi).hasDerivAt).congr_of_eventuallyEq ?_
    filter_upwards [h.eq] with ε hε
    have := ((Scheme.eq_zero_iff pre b (env ε)).mp hε).2.1 n hn i hi
    rw [b.cont (env ε) i n hn] at this
    simp only [b.x, b.Kd]
    exact (sub_eq_zero.mp this).symm
  -- the variations at the collocation points
  have hvar : ∀ env, VariationVars s d rep env → ∀ n < t.length - 1, ∀ j < order, ∀ e : ℝ → Env ℝ,
      (∀ ε, AtPoint s d xdot tdp_fun rep (env ε) (e ε) (n * order + j)) →
      Variation d xdot res tdp_fun e (fun i => deriv (fun ε => s.x.val (env ε) i n) 0 + (nd t (n + 1) - nd t n) *
        ∑ k ∈ Finset.range order, deriv (fun ε => s.Kd.val (env ε) i (n * order + k)) 0 * wA tau j k)
        (fun i => deriv (fun ε => s.Kd.val (env ε) i (n * order + j)) 0) := by
    intro env h n hn j hj e hat
    have hc : n * order + j < (t.length - 1) * order := block_lt hn hj
    have hcs2 : n * order + j < s.N * s.M := by rw [b.N_eq, b.M_eq]; exact hc
    refine ⟨fun i hi => ?_, fun i hi => ?_, fun i hi => ?_, ?_, ?_, fun ε => ?_, fun f hf ε i hi l hl => ?_, ?_⟩
    · exact (hX env h n hn j hj i hi).congr_of_eventuallyEq (Eventually.of_forall fun ε => (hat ε).x i (by rw [← pre.wf.nx]; exact hi))
    · exact (h.k _ hcs2 i hi).hasDerivAt.congr_of_eventuallyEq
        (Eventually.of_forall fun ε => (hat ε).xdot i (by rw [← pre.wf.nx]; exact hi))
    · exact (h.z _ hcs2 i hi).congr_of_eventuallyEq
        (Eventually.of_forall fun ε => (hat ε).z i (by rw [← pre.wf.nz]; exact hi))
    · filter_upwards [h.u] with ε hε i hi
      have hi' : i < d.u.rows := by rw [← pre.wf.nu]; exact hi
      rw [(hat ε).u i hi', (hat 0).u i hi', b.M_eq, div_block hj]
      exact hε n (by rw [b.N_eq]; exact hn) i hi
    · filter_upwards [h.p] with ε hε i hi
      have hi' : i < d.p.rows := by rw [← hnp]; exact hi
      rw [(hat ε).p i hi', (hat 0).p i hi']
      exact hε _ (by split_ifs; exacts [hcs2, Nat.one_pos]) i hi
    · rw [(hat ε).t, (hat 0).t]
    · rw [(hat ε).tdp f hf i hi l hl, (hat 0).t]
    · filter_upwards [h.eq] with ε hε i hi l hl
      rw [pre.wf.res_cols] at hl
      obtain rfl : l = 0 := by omega
      rw [← ((hat ε).out hcs pre b.toCore hc).1 i hi]
      exact ((Scheme.eq_zero_iff pre b (env ε)).mp hε).1 _ hc i hi
  have hlaw : ∀ n < t.length - 1, ∀ k < order, ∑ i ∈ Finset.range d.nx, ∑ j ∈ Finset.range d.nx,
      S i j * (deriv (fun ε => s.Kd.val (env₁ ε) i (n * order + k)) 0 * (deriv (fun ε => s.x.val (env₂ ε) j n) 0 +
          (nd t (n + 1) - nd t n) * ∑ l ∈ Finset.range order, deriv (fun ε => s.Kd.val (env₂ ε) j (n * order + l)) 0 * wA tau k l) +
        (deriv (fun ε => s.x.val (env₁ ε) i n) 0 + (nd t (n + 1) - nd t n) *
          ∑ l ∈ Finset.range order, deriv (fun ε => s.Kd.val (env₁ ε) i (n * order + l)) 0 * wA tau k l) *
          deriv (fun ε => s.Kd.val (env₂ ε) j (n * order + k)) 0) = 0 := by
    intro n hn k hk
    have hc : n * order + k < (t.length - 1) * order := block_lt hn hk
    have hcs2 : n * order + k < s.N * s.M := by rw [b.N_eq, b.M_eq]; exact hc
    choose e₁ hat₁ using fun ε => exists_atPoint hcs pre b.toCore (env₁ ε) hc
    choose e₂ hat₂ using fun ε => exists_atPoint hcs pre b.toCore (env₂ ε) hc
    refine law e₁ e₂ _ _ _ _ (hvar env₁ h₁ n hn k hk e₁ hat₁) (hvar env₂ h₂ n hn k hk e₂ hat₂) ⟨fun i hi => ?_, fun i hi => ?_,
      fun i hi => ?_, fun i hi => ?_, fun i hi => ?_, ?_⟩
    · have hi' : i < d.x.rows := by rw [← pre.wf.nx]; exact hi
      rw [(hat₁ 0).x i hi', (hat₂ 0).x i hi', b.X _ i n k hn hk, b.X _ i n k hn hk]
      have hx := h0.x n (by rw [b.N_eq]; omega) i hi
      have hkk := fun l (hl : l < order) => h0.k (n * order + l) (by rw [b.N_eq, b.M_eq]; exact block_lt hn hl) i hi
      rw [b.x] at hx
      rw [b.Kd] at hkk
      change env₁ 0 (fresh "x") i n = env₂ 0 (fresh "x") i n at hx
      rw [hx]
      congr 2
      exact Finset.sum_congr rfl fun l hl => by
        have := hkk l (Finset.mem_range.mp hl)
        change env₁ 0 (fresh "K") i (n * order + l) = env₂ 0 (fresh "K") i (n * order + l) at this
        rw [this]
    · have hi' : i < d.x.rows := by rw [← pre.wf.nx]; exact hi
      rw [(hat₁ 0).xdot i hi', (hat₂ 0).xdot i hi']
      exact h0.k _ hcs2 i hi
    · have hi' : i < d.z.rows := by rw [← pre.wf.nz]; exact hi
      rw [(hat₁ 0).z i hi', (hat₂ 0).z i hi']
      exact h0.z _ hcs2 i hi
    · have hi' : i < d.u.rows := by rw [← pre.wf.nu]; exact hi
      rw [(hat₁ 0).u i hi', (hat₂ 0).u i hi', b.M_eq, div_block hk]
      exact h0.u n (by rw [b.N_eq]; exact hn) i hi
    · have hi' : i < d.p.rows := by rw [← hnp]; exact hi
      rw [(hat₁ 0).p i hi', (hat₂ 0).p i hi']
      exact h0.p _ (by split_ifs; exacts [hcs2, Nat.one_pos]) i hi
    · rw [(hat₁ 0).t, (hat₂ 0).t]
  intro n
  induction n with
  | zero => intro _; rfl
  | succ n ih =>
    intro hn
    have hn' : n < t.length - 1 := by rw [← b.N_eq]; omega
    rw [← ih (by omega)]
    have hsplit : ∀ i < d.nx, ∀ j < d.nx,
        S i j * (deriv (fun ε => s.x.val (env₁ ε) i (n + 1)) 0 * deriv (fun ε => s.x.val (env₂ ε) j (n + 1)) 0) =
        S i j * (deriv (fun ε => s.x.val (env₁ ε) i n) 0 * deriv (fun ε => s.x.val (env₂ ε) j n) 0) +
        ∑ k ∈ Finset.range order, (nd t (n + 1) - nd t n) * wb tau k * (S i j *
          (deriv (fun ε => s.Kd.val (env₁ ε) i (n * order + k)) 0 * (deriv (fun ε => s.x.val (env₂ ε) j n) 0 +
          (nd t (n + 1) - nd t n) * ∑ l ∈ Finset.range order, deriv (fun ε => s.Kd.val (env₂ ε) j (n * order + l)) 0 * wA tau k l) +
        (deriv (fun ε => s.x.val (env₁ ε) i n) 0 + (nd t (n + 1) - nd t n) *
          ∑ l ∈ Finset.range order, deriv (fun ε => s.Kd.val (env₁ ε) i (n * order + l)) 0 * wA tau k l) *
          deriv (fun ε => s.Kd.val (env₂ ε) j (n * order + k)) 0)) := by
      intro i hi j hj
      rw [hend env₁ h₁ n hn' i hi, hend env₂ h₂ n hn' j hj, symplectic_step (wb tau) (wA tau) hsymp, mul_add, Finset.mul_sum,
        Finset.mul_sum]
      congr 1
      exact Finset.sum_congr rfl fun k _ => by ring
    rw [Finset.sum_congr rfl fun i hi => Finset.sum_congr rfl fun j hj => hsplit i (Finset.mem_range.mp hi) j (Finset.mem_range.mp hj)]
    simp only [Finset.sum_add_distrib]
    rw [add_eq_left]
    rw [Finset.sum_congr rfl fun i _ => Finset.sum_comm, Finset.sum_comm]
    refine Finset.sum_eq_zero fun k hk => ?_
    simp only [← Finset.mul_sum]
    rw [hlaw n hn' k (Finset.mem_range.mp hk), mul_zero]

/-- **C133** (integrator) For a regular model with small steps whose tangent model has linear equations: the outputs of
`CollocationIntegrator` with Gauss nodes for initial states `x1 ε` and `x2 ε` with the same value at 0 preserve the bilinear forms of
variations that the model preserves, for every rootfinder. -/
theorem C133_integrator (hcs : IsCsFunction csFunction)
    (pre : SchemePre freshI casadiPoints csFunction dae t order method tdp_fun d xdot res tau F)
    (pre' : SchemePre freshI' casadiPoints csFunction dae' t order method tdp_fun d' xdot' res' tau F')
    (hfr : DistinctSyms fresh) (hfr' : DistinctSyms fresh') (hpq : dae.np = 0 ∨ dae.nq = 0)
    (hT : LinearTangent d d' xdot xdot' res res' tdp_fun)
    (L Lz G Gz θ : ℝ) (reg : RegularDae d xdot res L Lz G Gz)
    (T : ButcherTableau ℝ) (hTab : butcherTableuForCollocationPoints tau = .ok T) (α β H : ℝ)
    (hα : ∀ j < order, ∑ k ∈ Finset.range order, |T.A.e [j, k]| ≤ α) (hβ : ∑ k ∈ Finset.range order, |T.b.e [k]| ≤ β)
    (ht : ∀ n < t.length - 1, nd t n ≤ nd t (n + 1) ∧ nd t (n + 1) - nd t n ≤ H) (hθ : θ < 1) (hstep : L * (H * α) ≤ θ)
    (hd : tau.Nodup) (hg : IsGauss tau) (S : ℕ → ℕ → ℝ) (law : VariationLaw d xdot res tdp_fun S)
    (rootfinder : (List ℝ → List ℝ) → List ℝ → Except PyErr (List ℝ)) (hrf : IsRootfinder rootfinder) :
    ∃ g, Integrator.new fresh freshI casadiPoints csFunction dae t order method tdp_fun = .ok g ∧
      ∀ (x₁ x₂ z₁ z₂ : ℝ → Mat ℝ) (u p : Mat ℝ) (out₁ out₂ : ℝ → IntegratorOut ℝ), DiffMat d.nx 1 x₁ → DiffMat d.nx 1 x₂ →
      (∀ i < d.nx, (x₁ 0).e i 0 = (x₂ 0).e i 0) →
      (∀ᶠ ε in 𝓝 0, g.call rootfinder (x₁ ε) (z₁ ε) u p = .ok (out₁ ε)) →
      (∀ᶠ ε in 𝓝 0, g.call rootfinder (x₂ ε) (z₂ ε) u p = .ok (out₂ ε)) →
      ∀ n < t.length, ∑ i ∈ Finset.range d.nx, ∑ j ∈ Finset.range d.nx,
          S i j * (deriv (fun ε => (out₁ ε).x.e i n) 0 * deriv (fun ε => (out₂ ε).x.e j n) 0) =
        ∑ i ∈ Finset.range d.nx, ∑ j ∈ Finset.range d.nx,
          S i j * (deriv (fun ε => (x₁ ε).e i 0) 0 * deriv (fun ε => (x₂ ε).e j 0) 0) := by
  obtain ⟨s, x1, hs, -, hx1v, hnew⟩ := integrator_new fresh freshI casadiPoints csFunction dae t order method tdp_fun d xdot res tau F pre
  obtain ⟨s', -, hs', -, -, -⟩ := integrator_new fresh' freshI' casadiPoints csFunction dae' t order method tdp_fun d' xdot' res' tau F' pre'
  obtain ⟨px, -, -, pp, -, pq, -⟩ := makeImplicit_parts pre.impl
  have hnx : dae.nx = d.nx := by simp [DaeObj.nx, px]
  rw [if_neg (by omega)] at hnew
  have b := pre.built hs
  have htwo := pre.two
  obtain ⟨g, hgn, hgs, hge, hgr⟩ : ∃ g, Integrator.new fresh freshI casadiPoints csFunction dae t order method tdp_fun = .ok g ∧
      g.scheme = s ∧ g.env = Integrator.envOf fresh s ∧ ∀ w x0 u p, g.residual w x0 u p = s.eq.vals (Integrator.envOf fresh s w u p) ++
      (List.range dae.nx).map fun i => x1.val (Integrator.envOf fresh s w u p) i 0 - x0.e i 0 :=
    ⟨_, hnew, rfl, rfl, fun _ _ _ _ => rfl⟩
  refine ⟨g, hgn, ?_⟩
  intro x₁ x₂ z₁ z₂ u p out₁ out₂ hx₁ hx₂ h0 hc₁ hc₂
  have key : ∀ (x0 z0 : ℝ → Mat ℝ) (out : ℝ → IntegratorOut ℝ), DiffMat d.nx 1 x0 →
      (∀ᶠ ε in 𝓝 0, g.call rootfinder (x0 ε) (z0 ε) u p = .ok (out ε)) →
      ∃ env : ℝ → Env ℝ, VariationVars s d false env ∧ ∀ᶠ ε in 𝓝 0, (∀ v ∈ s.eq.vals (env ε), v = 0) ∧
        (∀ i < d.nx, s.x.val (env ε) i 0 = (x0 ε).e i 0) ∧ s.u.val (env ε) = u.e ∧ s.p.val (env ε) = p.e ∧
        (out ε).x.e = s.x.val (env ε) := by
    intro x0 z0 out hx0 hout
    have spec : ∀ ε, ∃ env : Env ℝ, _ → _ := fun ε => by
      by_cases hε : g.call rootfinder (x0 ε) (z0 ε) u p = .ok (out ε)
      · obtain ⟨env, henv⟩ := integrator_call_spec t order tdp_fun d xdot res tau F b hfr hnx x1 hx1v g hgs hge hgr rootfinder hrf _ _ _ _ _ hε
        exact ⟨env, fun _ => henv⟩
      · exact ⟨fun _ _ _ => 0, fun h => absurd h hε⟩
    choose env henv using spec
    have hall := hout.mono fun ε hε => henv ε hε
    have hall0 := hall.self_of_nhds
    obtain ⟨env', -, ⟨hx, hk, hz, -, -⟩, -⟩ := C132_exists fresh fresh' freshI freshI' casadiPoints csFunction dae dae' t order method
      tdp_fun d d' xdot res xdot' res' tau F F' false s s' hcs pre pre' hs hs' hfr hfr' hT L Lz G Gz θ reg T hTab α β H
      (by rw [b.M_eq]; exact hα) (by rw [b.M_eq]; exact hβ) (by rw [b.N_eq]; exact ht) hθ hstep env (hall.mono fun ε hε => hε.1)
      (fun i hi => (hx0 i hi 0 Nat.one_pos).congr_of_eventuallyEq (by filter_upwards [hall] with ε hε; exact hε.2.1 i hi))
      (fun n hn i hi => (differentiableAt_const (u.e i n)).congr_of_eventuallyEq (by
        filter_upwards [hall] with ε hε; rw [hε.2.2.1]))
      (fun c hc i hi => (differentiableAt_const (p.e i c)).congr_of_eventuallyEq (by filter_upwards [hall] with ε hε; rw [hε.2.2.2.1]))
    refine ⟨env, ⟨hall.mono fun ε hε => hε.1, fun n hn i hi => (hx n hn i hi).2.differentiableAt,
      fun c hc i hi => (hk c hc i hi).2.differentiableAt, fun c hc i hi => (hz c hc i hi).2.differentiableAt, ?_, ?_⟩,
      hall.mono fun ε hε => ⟨hε.1, hε.2.1, hε.2.2.1, hε.2.2.2.1, hε.2.2.2.2.1⟩⟩
    · filter_upwards [hall] with ε hε n _ i _
      rw [hε.2.2.1, hall0.2.2.1]
    · filter_upwards [hall] with ε hε n _ i _
      rw [hε.2.2.2.1, hall0.2.2.2.1]
  obtain ⟨env₁, hv₁, e₁⟩ := key x₁ z₁ out₁ hx₁ hc₁
  obtain ⟨env₂, hv₂, e₂⟩ := key x₂ z₂ out₂ hx₂ hc₂
  have f₁ := e₁.self_of_nhds
  have f₂ := e₂.self_of_nhds
  have hL := reg.nonneg.1
  obtain ⟨q1, q2⟩ := C88_unique fresh freshI casadiPoints csFunction dae t order method tdp_fun d xdot res tau F false s hcs pre hs L Lz θ
    (reg.indexOne pre.wf.res_cols) hθ T hTab (fun n hn j hj => by
      rw [b.N_eq] at hn
      rw [b.M_eq] at hj ⊢
      refine (mul_le_mul_of_nonneg_left ?_ hL).trans hstep
      have hn0 := ht n hn
      rw [abs_of_nonneg (by linarith)]
      exact mul_le_mul hn0.2 (hα j hj) (Finset.sum_nonneg fun _ _ => abs_nonneg _) (by linarith))
    (env₁ 0) (env₂ 0) f₁.1 f₂.1 (fun i hi => by rw [f₁.2.1 i hi, f₂.2.1 i hi, h0 i hi])
    (fun n _ i _ => by rw [f₁.2.2.1, f₂.2.2.1]) (fun i _ => by rw [f₁.2.2.2.1, f₂.2.2.2.1])
  have h133 := C133_scheme fresh freshI casadiPoints csFunction dae t order method tdp_fun d xdot res tau F false s hcs pre hs hd hg S law
    env₁ env₂ hv₁ hv₂ ⟨q1, fun c hc i hi => ((q2 c hc).1 i hi).1, fun c hc => (q2 c hc).2,
      fun n _ i _ => by rw [f₁.2.2.1, f₂.2.2.1], fun c _ i _ => by rw [f₁.2.2.2.1, f₂.2.2.2.1]⟩
  have d₁ : ∀ i n, deriv (fun ε => (out₁ ε).x.e i n) 0 = deriv (fun ε => s.x.val (env₁ ε) i n) 0 := fun i n =>
    EventuallyEq.deriv_eq (by filter_upwards [e₁] with ε hε; rw [hε.2.2.2.2])
  have d₂ : ∀ i n, deriv (fun ε => (out₂ ε).x.e i n) 0 = deriv (fun ε => s.x.val (env₂ ε) i n) 0 := fun i n =>
    EventuallyEq.deriv_eq (by filter_upwards [e₂] with ε hε; rw [hε.2.2.2.2])
  have i₁ : ∀ i < d.nx, deriv (fun ε => (x₁ ε).e i 0) 0 = deriv (fun ε => s.x.val (env₁ ε) i 0) 0 := fun i hi =>
    EventuallyEq.deriv_eq (by filter_upwards [e₁] with ε hε; rw [hε.2.1 i hi])
  have i₂ : ∀ i < d.nx, deriv (fun ε => (x₂ ε).e i 0) 0 = deriv (fun ε => s.x.val (env₂ ε) i 0) 0 := fun i hi =>
    EventuallyEq.deriv_eq (by filter_upwards [e₂] with ε hε; rw [hε.2.1 i hi])
  intro n hn
  simp only [d₁, d₂]
  rw [h133 n (by rw [b.N_eq]; omega)]
  exact Finset.sum_congr rfl fun i hi => Finset.sum_congr rfl fun j hj => by
    rw [i₁ i (Finset.mem_range.mp hi), i₂ j (Finset.mem_range.mp hj)]

end

/-! ## Explicit models `x' = f(x)` -/

/-- The right-hand side `f` of a model with `n` states. -/
def rhsN (f : (ℕ → ℝ) → ℕ → ℝ) : Env ℝ → ℕ → ℝ := fun env => f fun k => env 0 k 0

/-- The right-hand side of the tangent model: `f(x)` and `J(x) v`. -/
noncomputable def rhsNT (n : ℕ) (f : (ℕ → ℝ) → ℕ → ℝ) (J : (ℕ → ℝ) → ℕ → ℕ → ℝ) : Env ℝ → ℕ → ℝ := fun env i =>
  if i < n then f (fun k => env 0 k 0) i else ∑ k ∈ Finset.range n, J (fun k => env 0 k 0) (i - n) k * env 0 (n + k) 0

/-- `J` is the derivative of `f` along curves, and `f` and `J` depend only on the first `n` elements. -/
structure IsJacobian (n : ℕ) (f : (ℕ → ℝ) → ℕ → ℝ) (J : (ℕ → ℝ) → ℕ → ℕ → ℝ) : Prop where
  deriv : ∀ (γ : ℝ → ℕ → ℝ) (γ' : ℕ → ℝ), (∀ k < n, HasDerivAt (fun ε => γ ε k) (γ' k) 0) → ∀ i < n,
    HasDerivAt (fun ε => f (γ ε) i) (∑ k ∈ Finset.range n, J (γ 0) i k * γ' k) 0
  f_congr : ∀ x y : ℕ → ℝ, (∀ k < n, x k = y k) → ∀ i < n, f x i = f y i
  J_congr : ∀ x y : ℕ → ℝ, (∀ k < n, x k = y k) → ∀ i < n, ∀ k < n, J x i k = J y i k

/-- The tangent model of `x' = f(x)`. -/
theorem linearTangentN {n : ℕ} {f : (ℕ → ℝ) → ℕ → ℝ} {J : (ℕ → ℝ) → ℕ → ℕ → ℝ} (hJ : IsJacobian n f J) (freshI : String → ℕ) :
    LinearTangent (odeD freshI n (rhsN f)) (odeD freshI (n + n) (rhsNT n f J)) (.sym (freshI "xdot") n)
      (.sym (freshI "xdot") (n + n)) (odeRes freshI n (rhsN f)) (odeRes freshI (n + n) (rhsNT n f J)) none := by
  have key : ∀ e e', TangentCurve (odeD freshI n (rhsN f)) (odeD freshI (n + n) (rhsNT n f J)) (.sym (freshI "xdot") n)
      (.sym (freshI "xdot") (n + n)) none e e' → ∀ i < n, e' (freshI "xdot") i 0 = e 0 (freshI "xdot") i 0 ∧
      HasDerivAt (fun ε => e ε (freshI "xdot") i 0) (e' (freshI "xdot") (n + i) 0) 0 ∧ rhsNT n f J e' i = rhsN f (e 0) i ∧
      HasDerivAt (fun ε => rhsN f (e ε) i) (rhsNT n f J e' (n + i)) 0 := by
    intro e e' h i hi
    have hnx : (odeD freshI n (rhsN f)).nx = n := by simp [DaeObj.nx, odeD, MXExpr.numel, MXExpr.sym]
    have hx := h.x
    have hk := h.xdot
    rw [hnx] at hx hk
    have hx0 : ∀ k < n, e' 0 k 0 = e 0 0 k 0 := fun k hk => (hx k hk).1
    refine ⟨(hk i hi).1, (hk i hi).2, ?_, ?_⟩
    · simp only [rhsNT, rhsN, if_pos hi]
      exact hJ.f_congr _ _ hx0 i hi
    · have := hJ.deriv (fun ε k => e ε 0 k 0) (fun k => e' 0 (n + k) 0) (fun k hk => (hx k hk).2) i hi
      simp only [rhsNT, if_neg (show ¬ n + i < n by omega), Nat.add_sub_cancel_left]
      rw [Finset.sum_congr rfl fun k hk => by rw [hJ.J_congr _ (fun k => e 0 0 k 0) hx0 i hi k (Finset.mem_range.mp hk)]]
      exact this
  have hnum : ∀ m (f : Env ℝ → ℕ → ℝ), (odeD freshI m f).nx = m := fun m f => by simp [DaeObj.nx, odeD, MXExpr.numel, MXExpr.sym]
  refine ⟨⟨⟨by rw [hnum, hnum], rfl, rfl, rfl, rfl, fun e e' h hz => ?_, fun e e' h hz i hi => absurd hi (Nat.not_lt_zero _)⟩,
    fun e e' h hz i hi => ?_⟩, fun e he => ?_⟩
  · rw [ode_residual]
    intro i hi
    have hz' : ∀ i < n, ∀ᶠ ε in 𝓝 0, e ε (freshI "xdot") i 0 = rhsN f (e ε) i := fun i hi =>
      hz.mono fun ε hε => (ode_residual freshI n (rhsN f) (e ε)).mp hε i hi
    by_cases hlt : i < n
    · obtain ⟨k0, -, f0, -⟩ := key e e' h i hlt
      rw [k0, f0, (hz' i hlt).self_of_nhds]
    · obtain ⟨k, rfl⟩ := Nat.exists_eq_add_of_le (not_lt.mp hlt)
      obtain ⟨-, k1, -, f1⟩ := key e e' h k (by omega)
      exact k1.unique (f1.congr_of_eventuallyEq (hz' k (by omega)))
  · change i < n at hi
    rw [ode_residual] at hz
    obtain ⟨k0, k1, f0, f1⟩ := key e e' h i hi
    have z0 := hz i (by omega)
    have z1 := hz (n + i) (by omega)
    have hr : ∀ ε, (odeRes freshI n (rhsN f)).val (e ε) i 0 = e ε (freshI "xdot") i 0 - rhsN f (e ε) i := fun ε => by
      simp [odeRes, hi]
    refine ⟨by rw [hr, ← k0, ← f0, z0, sub_self], ?_⟩
    rw [funext hr]
    have := k1.sub f1
    rwa [z1, sub_self] at this
  · refine ⟨fun i k => if i = k then 1 else 0, fun i k => -J (fun k => e 0 k 0) i k, fun _ _ => 0, fun _ _ => 0, fun _ _ => 0,
      fun e' h => ?_⟩
    have hx := h.x
    have hk := h.xdot
    rw [hnum] at hx hk
    have hx0 : ∀ k < n, e' 0 k 0 = e 0 k 0 := fun k hk => hx k hk
    have hk0 : ∀ k < n, e' (freshI "xdot") k 0 = e (freshI "xdot") k 0 := fun k hkk => hk k hkk
    have r0 := (ode_residual freshI n (rhsN f) e).mp he
    have hlin : ∀ i < n, rhsNT n f J e' (n + i) = ∑ k ∈ Finset.range n, J (fun k => e 0 k 0) i k * e' 0 (n + k) 0 := fun i hi => by
      simp only [rhsNT, if_neg (show ¬ n + i < n by omega), Nat.add_sub_cancel_left]
      exact Finset.sum_congr rfl fun k hk => by rw [hJ.J_congr _ _ hx0 i hi k (Finset.mem_range.mp hk)]
    rw [ode_residual, hnum]
    have hnz : (odeD freshI n (rhsN f)).nz = 0 := rfl
    have hnu : (odeD freshI n (rhsN f)).nu = 0 := rfl
    have hnp : (odeD freshI n (rhsN f)).np = 0 := rfl
    simp only [hnz, hnu, hnp, Finset.sum_range_zero, add_zero, ite_mul, one_mul, zero_mul, neg_mul, Finset.sum_neg_distrib]
    have hsum : ∀ i < n, ∑ k ∈ Finset.range n, (if i = k then (MXExpr.sym (freshI "xdot") (n + n)).val e' (n + k) 0 else 0) =
        e' (freshI "xdot") (n + i) 0 := fun i hi => by
      rw [Finset.sum_ite_eq (Finset.range n) i, if_pos (Finset.mem_range.mpr hi)]
      rfl
    constructor
    · intro hz i hi
      change i < n at hi
      rw [hsum i hi, hz (n + i) (by omega), hlin i hi]
      exact add_neg_cancel _
    · intro hz i hi
      by_cases hlt : i < n
      · rw [hk0 i hlt, r0 i hlt]
        simp only [rhsNT, rhsN, if_pos hlt]
        exact (hJ.f_congr _ _ hx0 i hlt).symm
      · obtain ⟨k, rfl⟩ := Nat.exists_eq_add_of_le (not_lt.mp hlt)
        have := hz k (show k < n by omega)
        rw [hsum k (by omega)] at this
        rw [hlin k (by omega)]
        exact add_neg_eq_zero.mp this

/-- **C133** (explicit models) An explicit model with `J' S + S J = 0` preserves the bilinear form with matrix `S` of two variations. -/
theorem C133_law {n : ℕ} {f : (ℕ → ℝ) → ℕ → ℝ} {J : (ℕ → ℝ) → ℕ → ℕ → ℝ} (hJ : IsJacobian n f J) (freshI : String → ℕ)
    (tdp_fun : Option (ℝ → Mat ℝ)) (S : ℕ → ℕ → ℝ)
    (hS : ∀ x, ∀ i < n, ∀ j < n, ∑ k ∈ Finset.range n, (J x k i * S k j + S i k * J x k j) = 0) :
    VariationLaw (odeD freshI n (rhsN f)) (.sym (freshI "xdot") n) (odeRes freshI n (rhsN f)) tdp_fun S := by
  intro e₁ e₂ v₁ w₁ v₂ w₂ h₁ h₂ h0
  have hnum : (odeD freshI n (rhsN f)).nx = n := by simp [DaeObj.nx, odeD, MXExpr.numel, MXExpr.sym]
  have hw : ∀ e v w, Variation (odeD freshI n (rhsN f)) (.sym (freshI "xdot") n) (odeRes freshI n (rhsN f)) tdp_fun e v w →
      ∀ i < n, w i = ∑ k ∈ Finset.range n, J (fun k => e 0 0 k 0) i k * v k := by
    intro e v w h i hi
    have hx := h.x
    have hk := h.xdot
    rw [hnum] at hx hk
    refine (hk i hi).unique ((hJ.deriv (fun ε k => e ε 0 k 0) v hx i hi).congr_of_eventuallyEq ?_)
    filter_upwards [h.residual] with ε hε
    exact (ode_residual freshI n (rhsN f) (e ε)).mp hε i hi
  have hx0 : ∀ k < n, e₂ 0 0 k 0 = e₁ 0 0 k 0 := by
    have := h0.x
    rw [hnum] at this
    exact fun k hk => (this k hk).symm
  have hw₁ := hw e₁ v₁ w₁ h₁
  have hw₂ : ∀ i < n, w₂ i = ∑ k ∈ Finset.range n, J (fun k => e₁ 0 0 k 0) i k * v₂ k := fun i hi => by
    rw [hw e₂ v₂ w₂ h₂ i hi]
    exact Finset.sum_congr rfl fun k hk => by rw [hJ.J_congr _ _ hx0 i hi k (Finset.mem_range.mp hk)]
  rw [hnum]
  set A := J (fun k => e₁ 0 0 k 0)
  have e1 : ∑ i ∈ Finset.range n, ∑ j ∈ Finset.range n, S i j * (w₁ i * v₂ j + v₁ i * w₂ j) =
      ∑ i ∈ Finset.range n, ∑ j ∈ Finset.range n, ∑ k ∈ Finset.range n, S i j * (A i k * v₁ k * v₂ j) +
      ∑ i ∈ Finset.range n, ∑ j ∈ Finset.range n, ∑ k ∈ Finset.range n, S i j * (v₁ i * (A j k * v₂ k)) := by
    rw [← Finset.sum_add_distrib]
    refine Finset.sum_congr rfl fun i hi => ?_
    rw [← Finset.sum_add_distrib]
    refine Finset.sum_congr rfl fun j hj => ?_
    rw [hw₁ i (Finset.mem_range.mp hi), hw₂ j (Finset.mem_range.mp hj), mul_add, Finset.sum_mul, Finset.mul_sum, Finset.mul_sum,
      Finset.mul_sum]
  have e2 : ∑ i ∈ Finset.range n, ∑ j ∈ Finset.range n, ∑ k ∈ Finset.range n, S i j * (A i k * v₁ k * v₂ j) =
      ∑ i ∈ Finset.range n, ∑ j ∈ Finset.range n, ∑ k ∈ Finset.range n, v₁ i * v₂ j * (A k i * S k j) := by
    calc _ = ∑ k ∈ Finset.range n, ∑ j ∈ Finset.range n, ∑ i ∈ Finset.range n, S i j * (A i k * v₁ k * v₂ j) := by
          rw [Finset.sum_congr rfl fun i _ => Finset.sum_comm, Finset.sum_comm]
          exact Finset.sum_congr rfl fun k _ => Finset.sum_comm
      _ = _ := Finset.sum_congr rfl fun k _ => Finset.sum_congr rfl fun j _ => Finset.sum_congr rfl fun i _ => by ring
  have e3 : ∑ i ∈ Finset.range n, ∑ j ∈ Finset.range n, ∑ k ∈ Finset.range n, S i j * (v₁ i * (A j k * v₂ k)) =
      ∑ i ∈ Finset.range n, ∑ j ∈ Finset.range n, ∑ k ∈ Finset.range n, v₁ i * v₂ j * (S i k * A k j) := by
    refine Finset.sum_congr rfl fun i _ => ?_
    rw [Finset.sum_comm]
    exact Finset.sum_congr rfl fun j _ => Finset.sum_congr rfl fun k _ => by ring
  rw [e1, e2, e3, ← Finset.sum_add_distrib]
  refine Finset.sum_eq_zero fun i hi => ?_
  rw [← Finset.sum_add_distrib]
  refine Finset.sum_eq_zero fun j hj => ?_
  rw [← Finset.sum_add_distrib, ← mul_zero (v₁ i * v₂ j), ← hS (fun k => e₁ 0 0 k 0) i (Finset.mem_range.mp hi) j (Finset.mem_range.mp hj),
    Finset.mul_sum]
  exact Finset.sum_congr rfl fun k _ => by rw [← mul_add]

/-- **C133** (Hamiltonian models) A model with `S` antisymmetric and `S J` symmetric (`S f` is the gradient of a function, the
Hamiltonian, and `S J` its second derivative) preserves the form with matrix `S`. -/
theorem C133_hamiltonian {n : ℕ} {f : (ℕ → ℝ) → ℕ → ℝ} {J : (ℕ → ℝ) → ℕ → ℕ → ℝ} (hJ : IsJacobian n f J) (freshI : String → ℕ)
    (tdp_fun : Option (ℝ → Mat ℝ)) (S : ℕ → ℕ → ℝ) (hanti : ∀ i < n, ∀ j < n, S i j = -S j i)
    (hsymm : ∀ x, ∀ i < n, ∀ j < n, ∑ k ∈ Finset.range n, S i k * J x k j = ∑ k ∈ Finset.range n, S j k * J x k i) :
    VariationLaw (odeD freshI n (rhsN f)) (.sym (freshI "xdot") n) (odeRes freshI n (rhsN f)) tdp_fun S := by
  refine C133_law hJ freshI tdp_fun S fun x i hi j hj => ?_
  rw [Finset.sum_add_distrib, hsymm x i hi j hj, ← Finset.sum_add_distrib]
  refine Finset.sum_eq_zero fun k hk => ?_
  rw [hanti k (Finset.mem_range.mp hk) j hj]
  ring

/-! ## Non-vacuity -/

/-- The pendulum `q' = p`, `p' = -sin(q)`. -/
noncomputable def pendF : (ℕ → ℝ) → ℕ → ℝ := fun x i => if i = 0 then x 1 else -Real.sin (x 0)

/-- Its Jacobian. -/
noncomputable def pendJ : (ℕ → ℝ) → ℕ → ℕ → ℝ := fun x i k => if i = 0 then (if k = 1 then 1 else 0) else if k = 0 then -Real.cos (x 0) else 0

/-- The matrix of the area form. -/
def areaS : ℕ → ℕ → ℝ := fun i j => if i = 0 ∧ j = 1 then 1 else if i = 1 ∧ j = 0 then -1 else 0

theorem pend_jacobian : IsJacobian 2 pendF pendJ := by
  refine ⟨fun γ γ' h i hi => ?_, fun x y h i hi => ?_, fun x y h i hi k hk => ?_⟩
  · have h0 := h 0 (by omega)
    have h1 := h 1 (by omega)
    interval_cases i
    · simpa [pendF, pendJ, Finset.sum_range_succ] using h1
    · simpa [pendF, pendJ, Finset.sum_range_succ] using h0.sin.fun_neg
  · simp only [pendF, h 0 (by omega), h 1 (by omega)]
  · simp only [pendJ, h 0 (by omega)]

theorem pend_law (freshI : String → ℕ) : VariationLaw (odeD freshI 2 (rhsN pendF)) (.sym (freshI "xdot") 2)
    (odeRes freshI 2 (rhsN pendF)) none areaS := by
  refine C133_hamiltonian pend_jacobian freshI none areaS (fun i hi j hj => ?_) fun x i hi j hj => ?_
  · interval_cases i <;> interval_cases j <;> simp [areaS]
  · interval_cases i <;> interval_cases j <;> simp [Finset.sum_range_succ, pendJ, areaS]

theorem pend_regular (freshI : String → ℕ) : RegularDae (odeD freshI 2 (rhsN pendF)) (.sym (freshI "xdot") 2)
    (odeRes freshI 2 (rhsN pendF)) 1 0 1 0 := by
  refine ⟨by norm_num, fun e e' _ _ _ _ δ ρ _ _ hδ hρ => ⟨fun i hi => ?_, fun k hk => absurd hk (Nat.not_lt_zero _)⟩⟩
  change i < 2 at hi
  have h0 : |e 0 0 0 - e' 0 0 0| ≤ δ := hδ 0 (show 0 < 2 by omega)
  have h1 : |e 0 1 0 - e' 0 1 0| ≤ δ := hδ 1 (show 1 < 2 by omega)
  have h2 := hρ i hi
  have h3 := (Real.abs_sin_sub_sin_le (e 0 0 0) (e' 0 0 0)).trans h0
  change |e (freshI "xdot") i 0 - e' (freshI "xdot") i 0| ≤ _
  rw [abs_le] at h0 h1 h2 h3 ⊢
  interval_cases i <;> simp [odeRes, rhsN, pendF] at h2 <;> constructor <;> linarith [h0.1, h0.2, h1.1, h1.2, h2.1, h2.2, h3.1, h3.2]

/-- C133 (integrator) for two steps of the midpoint rule for the pendulum and any rootfinder: the derivative of the final state with
respect to the initial state has determinant 1. -/
example (freshI : String → ℕ) (hI : 6 ≤ freshI "xdot") (q p : ℝ)
    (rootfinder : (List ℝ → List ℝ) → List ℝ → Except PyErr (List ℝ)) (hrf : IsRootfinder rootfinder) : ∃ g,
      Integrator.new exFresh freshI (fun _ _ => .ok [1 / 2]) idealCsFunction (odeO 2 (rhsN pendF)) [0, 1, 2] 1 "legendre" none = .ok g ∧
      ∀ z0 u par (out₁ out₂ : ℝ → IntegratorOut ℝ),
      (∀ ε, g.call rootfinder ⟨2, 1, fun i _ => if i = 0 then q + ε else p⟩ z0 u par = .ok (out₁ ε)) →
      (∀ ε, g.call rootfinder ⟨2, 1, fun i _ => if i = 0 then q else p + ε⟩ z0 u par = .ok (out₂ ε)) →
      deriv (fun ε => (out₁ ε).x.e 0 2) 0 * deriv (fun ε => (out₂ ε).x.e 1 2) 0 -
        deriv (fun ε => (out₁ ε).x.e 1 2) 0 * deriv (fun ε => (out₂ ε).x.e 0 2) 0 = 1 := by
  obtain ⟨F, pre⟩ := ode_pre freshI hI 2 (rhsN pendF) (fun e e' h _ i hi => pend_jacobian.f_congr _ _ h i hi) rfl [0, 1, 2] [1 / 2]
    (by simp) (by simp)
  obtain ⟨F', pre'⟩ := ode_pre freshI hI (2 + 2) (rhsNT 2 pendF pendJ) (fun e e' h _ i hi => by
    have h0 := h 0 (by omega)
    have h1 := h 1 (by omega)
    have h2 := h 2 (by omega)
    have h3 := h 3 (by omega)
    interval_cases i <;> simp [rhsNT, pendF, pendJ, Finset.sum_range_succ, h0, h1, h2, h3]) rfl [0, 1, 2] [1 / 2]
    (by simp) (by simp)
  obtain ⟨T, hT, hA0, hB0⟩ := half_tableau
  obtain ⟨g, hg, key⟩ := C133_integrator exFresh exFresh freshI freshI _ _ _ _ _ _ _ _ _ _ _ _ _ _ _ F F' idealCsFunction_spec pre
    pre' (by constructor <;> decide) (by constructor <;> decide) (.inl rfl) (linearTangentN pend_jacobian freshI) 1 0 1 0 (1 / 2)
    (pend_regular freshI) T hT (1 / 2) 1 1
    (fun j hj => by
      obtain rfl : j = 0 := by simp at hj; omega
      simp [hA0]) (by simp [hB0]) (fun n hn => by
        have hn : n < 2 := by simpa using hn
        interval_cases n <;> norm_num [nd]) (by norm_num) (by norm_num) (by simp) isGauss_midpoint_real areaS (pend_law freshI) rootfinder hrf
  refine ⟨g, hg, fun z0 u par out₁ out₂ h₁ h₂ => ?_⟩
  have hk := key (fun ε => ⟨2, 1, fun i _ => if i = 0 then q + ε else p⟩) (fun ε => ⟨2, 1, fun i _ => if i = 0 then q else p + ε⟩)
    (fun _ => z0) (fun _ => z0) u par out₁ out₂
    (fun i hi j hj => by
      by_cases h : i = 0 <;> simp only [h, if_true, if_false]
      exacts [differentiableAt_id.const_add q, differentiableAt_const p])
    (fun i hi j hj => by
      by_cases h : i = 0 <;> simp only [h, if_true, if_false]
      exacts [differentiableAt_const q, differentiableAt_id.const_add p])
    (fun i hi => by by_cases h : i = 0 <;> simp [h]) (Eventually.of_forall h₁) (Eventually.of_forall h₂) 2 (by simp)
  have hnum : (odeD freshI 2 (rhsN pendF)).nx = 2 := rfl
  rw [hnum] at hk
  simp [Finset.sum_range_succ, areaS] at hk
  linarith

/-- The harmonic oscillator. -/
def oscF : (ℕ → ℝ) → ℕ → ℝ := fun x i => if i = 0 then x 1 else -x 0

/-- Its Jacobian. -/
def oscJ : (ℕ → ℝ) → ℕ → ℕ → ℝ := fun _ i k => if i = 0 then (if k = 1 then 1 else 0) else if k = 0 then -1 else 0

theorem osc_jacobian : IsJacobian 2 oscF oscJ := by
  refine ⟨fun γ γ' h i hi => ?_, fun x y h i hi => ?_, fun x y h i hi k hk => rfl⟩
  · have h0 := h 0 (by omega)
    have h1 := h 1 (by omega)
    interval_cases i
    · simpa [oscF, oscJ, Finset.sum_range_succ] using h1
    · simpa [oscF, oscJ, Finset.sum_range_succ] using h0.fun_neg
  · simp only [oscF, h 0 (by omega), h 1 (by omega)]

/-- A step of length 1 of the implicit Euler method from `(a, b)`. -/
noncomputable def areaEnv (a b : ℝ) : Env ℝ := fun id i j =>
  if id = 0 then (if j = 0 then (if i = 0 then a else b) else if i = 0 then (a + b) / 2 else (b - a) / 2)
  else if id = 1 then (if i = 0 then (b - a) / 2 else -((a + b) / 2)) else 0

/-- **C133** (other nodes) The Gauss nodes are needed: one step of the implicit Euler method (the Radau node 1) for the harmonic
oscillator satisfies all other hypotheses of `C133_scheme` for two variations, and halves the area that they span. -/
theorem C133_radau (freshI : String → ℕ) (hI : 6 ≤ freshI "xdot") : ∃ F s,
    SchemePre freshI (fun _ _ => .ok [1]) idealCsFunction (odeO 2 (rhsN oscF)) [0, 1] 1 "legendre" none (odeD freshI 2 (rhsN oscF))
      (.sym (freshI "xdot") 2) (odeRes freshI 2 (rhsN oscF)) [1] F ∧
    Scheme.new exFresh freshI (fun _ _ => .ok [1]) idealCsFunction (odeO 2 (rhsN oscF)) [0, 1] 1 "legendre" none = .ok s ∧
    VariationLaw (odeD freshI 2 (rhsN oscF)) (.sym (freshI "xdot") 2) (odeRes freshI 2 (rhsN oscF)) none areaS ∧
    ∃ env₁ env₂ : ℝ → Env ℝ, VariationVars s (odeD freshI 2 (rhsN oscF)) false env₁ ∧
      VariationVars s (odeD freshI 2 (rhsN oscF)) false env₂ ∧ SameVars s (odeD freshI 2 (rhsN oscF)) false (env₁ 0) (env₂ 0) ∧
      ∀ n ≤ s.N, ∑ i ∈ Finset.range 2, ∑ j ∈ Finset.range 2,
        areaS i j * (deriv (fun ε => s.x.val (env₁ ε) i n) 0 * deriv (fun ε => s.x.val (env₂ ε) j n) 0) = if n = 0 then 1 else 1 / 2 := by
  obtain ⟨F, pre⟩ := ode_pre freshI hI 2 (rhsN oscF) (fun e e' h _ i hi => osc_jacobian.f_congr _ _ h i hi) rfl [0, 1] [1]
    (by simp) (by simp)
  obtain ⟨s, -, hs, -⟩ := integrator_new exFresh freshI _ _ _ _ _ _ _ _ _ _ _ F pre
  have b := pre.built hs
  have hN1 : ([0, 1] : List ℝ).length - 1 = 1 := rfl
  have hn0 : nd ([0, 1] : List ℝ) (0 + 1) - nd ([0, 1] : List ℝ) 0 = 1 := by norm_num
  have hA : wA ([1] : List ℝ) 0 0 = 1 ∧ wb ([1] : List ℝ) 0 = 1 := by
    obtain ⟨T, hT, hA, hB, -⟩ := C09_butcher_consistent ([1] : List ℝ) (by simp) (by simp)
    obtain ⟨T', hT', -, -, -, hc, -⟩ := C08_butcher_exact ([1] : List ℝ) (by simp)
    rw [hT] at hT'
    cases hT'
    have hA0 : T.A.e [0, 0] = 1 := by
      have := hA 0 (by simp)
      rw [hc 0 (by simp)] at this
      simpa using this
    have hB0 : T.b.e [0] = 1 := by simpa using hB
    rw [butcher_ok] at hT; cases hT
    exact ⟨hA0, by simpa [NdArray.vec, wb] using hB0⟩
  have heq : ∀ a c : ℝ, ∀ v ∈ s.eq.vals (areaEnv a c), v = 0 := by
    intro a c
    refine (Scheme.eq_zero_iff pre b _).mpr ⟨?_, ?_, fun h => by cases h⟩
    · intro m hm i hi
      obtain rfl : m = 0 := by rw [hN1] at hm; simp at hm; omega
      obtain ⟨e, hat⟩ := exists_atPoint idealCsFunction_spec pre b.toCore (areaEnv a c) hm
      have o := hat.out idealCsFunction_spec pre b.toCore hm
      rw [o.1 i hi]
      refine (ode_residual freshI 2 (rhsN oscF) e).mpr (fun i hi => ?_) i hi 0 Nat.one_pos
      have hxd := hat.xdot i hi
      have hx : ∀ l < 2, e 0 l 0 = areaEnv a c 0 l 0 + areaEnv a c 1 l 0 := fun l hl => by
        refine (hat.x l hl).trans ?_
        have := b.X (areaEnv a c) l 0 0 (by simp) (by simp)
        simp only [List.length_singleton, mul_one, zero_add, Finset.sum_range_one, hA.1] at this
        rw [this]
        norm_num
        rfl
      have x0 := hx 0 (by omega)
      have x1 := hx 1 (by omega)
      rw [b.Kd] at hxd
      refine hxd.trans ?_
      change areaEnv a c 1 i 0 = rhsN oscF e i
      interval_cases i <;> simp [rhsN, oscF, x0, x1, areaEnv] <;> ring
    · intro k hk' i hi
      obtain rfl : k = 0 := by rw [hN1] at hk'; omega
      rw [b.cont _ i 0 hk', hn0]
      have hi : i < 2 := hi
      simp only [List.length_singleton, Finset.sum_range_one, hA.2]
      change areaEnv a c 0 i 0 + 1 * (areaEnv a c 1 i (0 * 1 + 0) * 1) - areaEnv a c 0 i 1 = 0
      interval_cases i <;> simp [areaEnv] <;> ring
  have hvar : ∀ a c : ℝ → ℝ, DifferentiableAt ℝ a 0 → DifferentiableAt ℝ c 0 →
      VariationVars s (odeD freshI 2 (rhsN oscF)) false fun ε => areaEnv (a ε) (c ε) := by
    intro a c ha hc
    refine ⟨Eventually.of_forall fun ε => heq _ _, fun n hn i hi => ?_, fun m hm i hi => ?_,
      fun m hm i hi => absurd hi (Nat.not_lt_zero _), Eventually.of_forall fun ε n hn i hi => absurd hi (Nat.not_lt_zero _),
      Eventually.of_forall fun ε n hn i hi => absurd hi (Nat.not_lt_zero _)⟩
    · rw [b.x]
      change DifferentiableAt ℝ (fun ε => areaEnv (a ε) (c ε) 0 i n) 0
      simp only [areaEnv, if_true]
      split_ifs <;> fun_prop
    · rw [b.Kd]
      change DifferentiableAt ℝ (fun ε => areaEnv (a ε) (c ε) 1 i m) 0
      simp only [areaEnv, one_ne_zero, if_false, if_true]
      split_ifs <;> fun_prop
  refine ⟨F, s, pre, hs, C133_law osc_jacobian freshI none areaS fun x i hi j hj => ?_, fun ε => areaEnv ε 0, fun ε => areaEnv 0 ε,
    hvar (fun ε => ε) (fun _ => 0) differentiableAt_id (differentiableAt_const _),
    hvar (fun _ => 0) (fun ε => ε) (differentiableAt_const _) differentiableAt_id,
    ⟨fun _ _ _ _ => rfl, fun _ _ _ _ => rfl, fun _ _ _ _ => rfl, fun _ _ _ _ => rfl, fun _ _ _ _ => rfl⟩, fun n hn => ?_⟩
  · interval_cases i <;> interval_cases j <;> simp [Finset.sum_range_succ, oscJ, areaS]
  · rw [b.N_eq, hN1] at hn
    rw [b.x]
    change ∑ i ∈ Finset.range 2, ∑ j ∈ Finset.range 2, areaS i j * (deriv (fun ε => areaEnv ε 0 0 i n) 0 *
      deriv (fun ε => areaEnv 0 ε 0 j n) 0) = _
    interval_cases n <;> simp [Finset.sum_range_succ, areaS, areaEnv] <;> norm_num

end CE
