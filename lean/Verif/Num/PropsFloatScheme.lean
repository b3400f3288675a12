import Verif.Num.LemFloatScheme
import Verif.Num.PropsFloatPdq
import Verif.Num.PropsInexact

/-!
# Property C118: the collocation scheme with rounded coefficients
-/

open Set

namespace CE

/-- The residual depends Lipschitz continuously on the time (and through `tdp_fun` on the time-dependent parameter), for equal values of the
other symbols. -/
structure TimeLipschitz (d : DaeObj ℝ) (xdot res : MXExpr ℝ) (tdp_fun : Option (ℝ → Mat ℝ)) (Lt : ℝ) : Prop where
  nonneg : 0 ≤ Lt
  lipschitz : ∀ (v ξ w u p : ℕ → ℝ) (τ τ' : ℝ) (e e' : Env ℝ), PointVals d xdot v ξ w u p τ (tdpAt tdp_fun τ).e e →
    PointVals d xdot v ξ w u p τ' (tdpAt tdp_fun τ').e e' → ∀ i < res.rows, |res.val e i 0 - res.val e' i 0| ≤ Lt * |τ - τ'|

/-- Any values can be assigned. -/
theorem exists_vals {freshI : String → ℕ} {casadiPoints : ℕ → String → Except PyErr (List ℝ)}
    {csFunction : List (MXExpr ℝ) → List (MXExpr ℝ) → Except PyErr (CsFn ℝ)}
    {dae : DaeObj ℝ} {t : List ℝ} {order : ℕ} {method : String} {tdp_fun : Option (ℝ → Mat ℝ)}
    {d : DaeObj ℝ} {xdot res : MXExpr ℝ} {tau : List ℝ} {F : CsFn ℝ} (hcs : IsCsFunction csFunction)
    (pre : SchemePre freshI casadiPoints csFunction dae t order method tdp_fun d xdot res tau F)
    (v ξ w u p : ℕ → ℝ) (τ : ℝ) (q : ℕ → ℕ → ℝ) : ∃ e, PointVals d xdot v ξ w u p τ q e := by
  have wf := pre.wf
  obtain ⟨e, he⟩ := (hcs _ _ _ pre.fn).free
    [⟨d.x.rows, 1, fun i _ => v i⟩, ⟨d.x.rows, 1, fun i _ => ξ i⟩, ⟨d.z.rows, 1, fun i _ => w i⟩, ⟨d.u.rows, 1, fun i _ => u i⟩,
      ⟨d.p.rows, 1, fun i _ => p i⟩, ⟨1, 1, fun _ _ => τ⟩, ⟨d.tdp.rows, d.tdp.cols, q⟩] (by
    refine .cons ⟨wf.xdot_rows.symm, wf.xdot_cols.symm⟩ (.cons ⟨rfl, wf.x.symm⟩ (.cons ⟨rfl, wf.z.symm⟩ (.cons ⟨rfl, wf.u.symm⟩
      (.cons ⟨rfl, pre.p.symm⟩ (.cons ⟨wf.t.1.symm, wf.t.2.symm⟩ (.cons ⟨rfl, rfl⟩ .nil)))))))
  simp only [List.forall₂_cons, List.forall₂_nil_left_iff, and_true] at he
  obtain ⟨h1, h2, h3, h4, h5, h6, h7⟩ := he
  exact ⟨e, fun i hi => (h1.2.2 i hi 0 Nat.one_pos).symm, fun i hi => (h2.2.2 i hi 0 Nat.one_pos).symm,
    fun i hi => (h3.2.2 i hi 0 Nat.one_pos).symm, fun i hi => (h4.2.2 i hi 0 Nat.one_pos).symm,
    fun i hi => (h5.2.2 i hi 0 Nat.one_pos).symm, (h6.2.2 0 Nat.one_pos 0 Nat.one_pos).symm, fun i hi j hj => (h7.2.2 i hi j hj).symm⟩

namespace FltC

variable (f : FltC)

/-- A coefficient of an integration matrix. -/
theorem coef_err (t : List ℝ) (n : ℕ) (ht : nd t n ≤ nd t (n + 1)) (c c' e : ℝ) (hc : |c' - c| ≤ e) :
    |f.rnd (f.len t n * c') - (nd t (n + 1) - nd t n) * c| ≤ (nd t (n + 1) - nd t n) * (((1 + f.u) ^ 2 - 1) * (|c| + e) + e) := by
  set h := nd t (n + 1) - nd t n with hh
  have h0 : 0 ≤ h := sub_nonneg.mpr ht
  have hu := f.u_nonneg
  have e1 : |f.len t n - h| ≤ f.u * h := by
    have := f.err h
    rwa [abs_of_nonneg h0] at this
  have e2 := f.err (f.len t n * c')
  have h1 : |c'| ≤ |c| + e := by
    have := abs_add_le c (c' - c)
    rw [add_sub_cancel] at this
    linarith
  have h2 : |f.len t n| ≤ (1 + f.u) * h := by
    have := abs_add_le h (f.len t n - h)
    rw [add_sub_cancel, abs_of_nonneg h0] at this
    linarith
  have e0 : 0 ≤ |c| + e := (abs_nonneg _).trans h1
  rw [abs_mul] at e2
  have h3 : |f.len t n| * |c'| ≤ (1 + f.u) * h * (|c| + e) := mul_le_mul h2 h1 (abs_nonneg _) (by positivity)
  have h4 : |f.len t n - h| * |c'| ≤ f.u * h * (|c| + e) := mul_le_mul e1 h1 (abs_nonneg _) (by positivity)
  have h5 : |h * (c' - c)| ≤ h * e := by
    rw [abs_mul, abs_of_nonneg h0]
    exact mul_le_mul_of_nonneg_left hc h0
  have h6 : f.rnd (f.len t n * c') - h * c = (f.rnd (f.len t n * c') - f.len t n * c') + (f.len t n - h) * c' + h * (c' - c) := by ring
  rw [h6]
  refine (abs_add_le _ _).trans ((add_le_add (abs_add_le _ _) le_rfl).trans ?_)
  rw [abs_mul (f.len t n - h)]
  have h7 := mul_le_mul_of_nonneg_left h3 hu
  have : h * (((1 + f.u) ^ 2 - 1) * (|c| + e) + e) = f.u * ((1 + f.u) * h * (|c| + e)) + f.u * h * (|c| + e) + h * e := by ring
  linarith

/-- A collocation time. -/
theorem time_err (t : List ℝ) (n : ℕ) (ht : nd t n ≤ nd t (n + 1)) (c : ℝ) :
    |f.rnd (nd t n + f.rnd (f.len t n * c)) - (nd t n + (nd t (n + 1) - nd t n) * c)| ≤
      f.u * |nd t n| + ((1 + f.u) ^ 3 - 1) * ((nd t (n + 1) - nd t n) * |c|) := by
  have h1 := f.coef_err t n ht c c 0 (by simp)
  rw [add_zero, add_zero] at h1
  set h := nd t (n + 1) - nd t n
  have h0 : 0 ≤ h := sub_nonneg.mpr ht
  have hu := f.u_nonneg
  set y := f.rnd (f.len t n * c)
  have h2 := f.err (nd t n + y)
  have h3 : |nd t n + y| ≤ |nd t n| + (1 + f.u) ^ 2 * (h * |c|) := by
    have h4 := abs_add_le (nd t n) y
    have h5 := abs_add_le (h * c) (y - h * c)
    rw [add_sub_cancel, abs_mul, abs_of_nonneg h0] at h5
    linarith
  have h4 := mul_le_mul_of_nonneg_left h3 hu
  have h5 : f.rnd (nd t n + y) - (nd t n + h * c) = (f.rnd (nd t n + y) - (nd t n + y)) + (y - h * c) := by ring
  rw [h5]
  refine (abs_add_le _ _).trans ?_
  have : ((1 + f.u) ^ 3 - 1) * (h * |c|) = f.u * ((1 + f.u) ^ 2 * (h * |c|)) + h * (((1 + f.u) ^ 2 - 1) * |c|) := by ring
  linarith

section
variable (fresh freshI : String → ℕ) (casadiPoints : ℕ → String → Except PyErr (List ℝ))
    (csFunction : List (MXExpr ℝ) → List (MXExpr ℝ) → Except PyErr (CsFn ℝ))
    (dae : DaeObj ℝ) (t : List ℝ) (order : ℕ) (method : String) (tdp_fun : Option (ℝ → Mat ℝ))
    (d : DaeObj ℝ) (xdot res : MXExpr ℝ) (tau : List ℝ) (F : CsFn ℝ) (rep : Bool) (s s' : Scheme ℝ)

/-- **C118** (construction) The scheme is constructed under the same conditions as with exact coefficients, with the same variables. -/
theorem C118_constructed (pre : SchemePre freshI casadiPoints csFunction dae t order method tdp_fun d xdot res tau F) :
    ∃ s s', Scheme.new fresh freshI casadiPoints csFunction dae t order method tdp_fun rep = .ok s ∧
      f.schemeNew fresh freshI casadiPoints csFunction dae t order method tdp_fun rep = .ok s' ∧
      s'.N = s.N ∧ s'.M = s.M ∧ s'.x = s.x ∧ s'.Kd = s.Kd ∧ s'.Z = s.Z ∧ s'.u = s.u ∧ s'.p = s.p ∧ s'.eqParam = s.eqParam := by
  obtain ⟨s, hs, b⟩ := Scheme.new_built (fresh := fresh) rep pre
  obtain ⟨s', hs', b'⟩ := f.schemeNew_built (fresh := fresh) rep pre
  have hp : s'.p = s.p := by rw [b'.p, b.p]
  exact ⟨s, s', hs, hs', by rw [b'.N_eq, b.N_eq], by rw [b'.M_eq, b.M_eq], by rw [b'.x, b.x], by rw [b'.Kd, b.Kd], by rw [b'.Z, b.Z],
    by rw [b'.u, b.u], hp, by rw [b'.param, b.param, hp]⟩

/-- **C118** (coefficients and times) -/
theorem C118_times (pre : SchemePre freshI casadiPoints csFunction dae t order method tdp_fun d xdot res tau F)
    (hs : Scheme.new fresh freshI casadiPoints csFunction dae t order method tdp_fun rep = .ok s)
    (hs' : f.schemeNew fresh freshI casadiPoints csFunction dae t order method tdp_fun rep = .ok s')
    (ht : ∀ n < s.N, nd t n ≤ nd t (n + 1)) :
    s'.tc.length = s.tc.length ∧ ∀ n < s.N, ∀ j < s.M, |nd s'.tc (n * s.M + j) - nd s.tc (n * s.M + j)| ≤
      f.u * |nd t n| + ((1 + f.u) ^ 3 - 1) * ((nd t (n + 1) - nd t n) * |nd tau j|) := by
  have b := pre.built hs
  obtain ⟨s'', h1, b'⟩ := f.schemeNew_built (fresh := fresh) rep pre
  obtain rfl : s' = s'' := Except.ok.inj (hs'.symm.trans h1)
  refine ⟨by rw [b'.tc_len, b.tc_len], fun n hn j hj => ?_⟩
  have hn' := hn
  rw [b.N_eq] at hn'
  rw [b.M_eq] at hj ⊢
  rw [b'.tc n j hn' hj, b.tc n j hn' hj]
  exact f.time_err t n (ht n hn) _

/-- **C118** (states) A regular model whose residual is Lipschitz continuous in time: an assignment that solves the exact scheme up to
`tol₁` and an assignment that solves the scheme with rounded coefficients up to `tol₂`, with the same inputs and parameters; bounds for
the differences of the states, the derivatives and the algebraic states. -/
theorem C118_states (hcs : IsCsFunction csFunction)
    (pre : SchemePre freshI casadiPoints csFunction dae t order method tdp_fun d xdot res tau F)
    (hs : Scheme.new fresh freshI casadiPoints csFunction dae t order method tdp_fun rep = .ok s)
    (hs' : f.schemeNew fresh freshI casadiPoints csFunction dae t order method tdp_fun rep = .ok s')
    (L Lz G Gz Lt θ : ℝ) (reg : RegularDae d xdot res L Lz G Gz) (tl : TimeLipschitz d xdot res tdp_fun Lt)
    (h01 : ∀ k < tau.length, nd tau k ∈ Icc (0 : ℝ) 1)
    (T T' : ButcherTableau ℝ) (hT : butcherTableuForCollocationPoints tau = .ok T) (hT' : f.butcherTableau tau = .ok T')
    (α β H α' β' R : ℝ)
    (hα : ∀ j < s.M, ∑ k ∈ Finset.range s.M, |T.A.e [j, k]| ≤ α) (hβ : ∑ k ∈ Finset.range s.M, |T.b.e [k]| ≤ β)
    (hα' : ∀ j < s.M, ∑ k ∈ Finset.range s.M, |T'.A.e [j, k] - T.A.e [j, k]| ≤ α')
    (hβ' : ∑ k ∈ Finset.range s.M, |T'.b.e [k] - T.b.e [k]| ≤ β')
    (ht : ∀ n < s.N, nd t n ≤ nd t (n + 1) ∧ nd t (n + 1) - nd t n ≤ H) (hR : ∀ n < s.N, |nd t n| ≤ R)
    (hθ : θ < 1) (hstep : L * (H * α) ≤ θ)
    (env₁ env₂ : Env ℝ) (tol₁ tol₂ ε κ : ℝ) (h₁ : ∀ v ∈ s.eq.vals env₁, |v| ≤ tol₁) (h₂ : ∀ v ∈ s'.eq.vals env₂, |v| ≤ tol₂)
    (htol : 0 ≤ tol₁ ∧ 0 ≤ tol₂)
    (hκ : 0 ≤ κ) (hK : ∀ c < s.N * s.M, ∀ i < d.nx, |s.Kd.val env₂ i c| ≤ κ)
    (hu : ∀ n < s.N, ∀ i < d.nu, s.u.val env₁ i n = s.u.val env₂ i n)
    (hp : ∀ c < s.p.cols, ∀ i < d.np, s.p.val env₁ i c = s.p.val env₂ i c)
    (hε : 0 ≤ ε) (h0 : ∀ i < d.nx, |s.x.val env₁ i 0 - s.x.val env₂ i 0| ≤ ε) :
    let tol := tol₁ + tol₂
    let ηA := ((1 + f.u) ^ 2 - 1) * (α + α') + α'
    let ηb := ((1 + f.u) ^ 2 - 1) * (β + β') + β'
    let ω := f.u * R + ((1 + f.u) ^ 3 - 1) * H
    let g := G * (tol + Lt * ω) + L * (H * ηA * κ)
    let Λ := β * L / (1 - θ)
    let bound := fun n : ℕ => Real.exp (Λ * (nd t n - nd t 0)) * (ε + (nd t n - nd t 0) * (β * g / (1 - θ) + ηb * κ) + n * tol)
    (∀ n ≤ s.N, ∀ i < d.nx, |s.x.val env₁ i n - s.x.val env₂ i n| ≤ bound n) ∧
    ∀ n < s.N, ∀ j < s.M,
      (∀ i < d.nx, |s.Kd.val env₁ i (n * s.M + j) - s.Kd.val env₂ i (n * s.M + j)| ≤ (L * bound n + g) / (1 - θ) ∧
        |s.X.val env₁ i (n * s.M + j) - s'.X.val env₂ i (n * s.M + j)| ≤ (bound n + H * α * g) / (1 - θ) + H * ηA * κ) ∧
      ∀ k < d.nz, |s.Z.val env₁ k (n * s.M + j) - s.Z.val env₂ k (n * s.M + j)| ≤
        Lz * ((bound n + H * α * g) / (1 - θ) + H * ηA * κ) + Gz * (tol + Lt * ω) := by
  intro tol ηA ηb ω g Λ bound
  have b := pre.built hs
  obtain ⟨s'', hs'', b'⟩ := f.schemeNew_built (fresh := fresh) rep pre
  obtain rfl : s' = s'' := Except.ok.inj (hs'.symm.trans hs'')
  have hpos := pre.pos
  have hu0 := f.u_nonneg
  have hN := b.N_eq
  have hM := b.M_eq
  have hnp : d.np = d.p.rows := by simp [DaeObj.np, MXExpr.numel, pre.p]
  have hpc : s.p.cols = if rep then (t.length - 1) * order else 1 := by rw [b.p]; rfl
  have h1θ : 0 < 1 - θ := by linarith
  obtain ⟨hL, hG⟩ := reg.nonneg
  have hLt := tl.nonneg
  have htol0 : 0 ≤ tol := add_nonneg htol.1 htol.2
  rw [hN, hM]
  rw [hM] at hα hβ hα' hβ'
  rw [hN] at ht hu hR
  rw [hN, hM] at hK
  have hA : ∀ i j, T.A.e [i, j] = wA tau i j := by
    intro i j
    rw [butcher_ok] at hT; cases hT
    rfl
  have hB : ∀ k < order, T.b.e [k] = wb tau k := by
    intro k hk
    rw [butcher_ok] at hT; cases hT
    simp [NdArray.vec, nd, List.getD_eq_getElem?_getD, pre.len, hk, wb]
  have hA' : ∀ i j, T'.A.e [i, j] = f.fA tau i j := by
    intro i j
    rw [f.butcherTableau_ok] at hT'; cases hT'
    rfl
  have hB' : ∀ k < order, T'.b.e [k] = f.fb tau k := by
    intro k hk
    rw [f.butcherTableau_ok] at hT'; cases hT'
    simp [NdArray.vec, nd, List.getD_eq_getElem?_getD, pre.len, hk, fb]
  simp only [hA] at hα
  simp only [hA, hA'] at hα'
  rw [Finset.sum_congr rfl fun k hk => by rw [hB' k (Finset.mem_range.mp hk), hB k (Finset.mem_range.mp hk)]] at hβ'
  rw [Finset.sum_congr rfl fun k hk => by rw [hB k (Finset.mem_range.mp hk)]] at hβ
  have hα0 : 0 ≤ α := (Finset.sum_nonneg fun _ _ => abs_nonneg _).trans (hα 0 hpos)
  have hβ0 : 0 ≤ β := (Finset.sum_nonneg fun _ _ => abs_nonneg _).trans hβ
  have hα0' : 0 ≤ α' := (Finset.sum_nonneg fun _ _ => abs_nonneg _).trans (hα' 0 hpos)
  have hβ0' : 0 ≤ β' := (Finset.sum_nonneg fun _ _ => abs_nonneg _).trans hβ'
  have hN1 : 0 < t.length - 1 := by have := pre.two; omega
  have hH : 0 ≤ H := by have := ht 0 hN1; linarith [this.1, this.2]
  have hR0 : 0 ≤ R := (abs_nonneg _).trans (hR 0 hN1)
  have hu2 : 0 ≤ (1 + f.u) ^ 2 - 1 := by nlinarith
  have hu3 : 0 ≤ (1 + f.u) ^ 3 - 1 := by nlinarith [mul_nonneg hu0 hu0, mul_nonneg (mul_nonneg hu0 hu0) hu0]
  have hηA : 0 ≤ ηA := by positivity
  have hηb : 0 ≤ ηb := by positivity
  have hω : 0 ≤ ω := by positivity
  have hg : 0 ≤ g := by positivity
  obtain ⟨r₁, c₁⟩ := Scheme.eq_tol pre b.toCore h₁
  obtain ⟨r₂, c₂⟩ := Scheme.eq_tol pre b'.toCore h₂
  rw [pre.wf.nx] at h0 hK ⊢
  rw [pre.wf.nz]
  rw [pre.wf.nu] at hu
  rw [hnp] at hp
  simp only [b.x, b.Kd, b.Z, b.u, b.p, MXExpr.sym] at h0 hu hp hK ⊢
  -- the coefficients of one interval
  have row : ∀ n < t.length - 1, ∀ (c c' : ℕ → ℝ) (γ e : ℝ), ∑ k ∈ Finset.range order, |c k| ≤ γ →
      ∑ k ∈ Finset.range order, |c' k - c k| ≤ e → ∀ i < d.x.rows,
      |∑ k ∈ Finset.range order, env₂ (fresh "K") i (n * order + k) * f.rnd (f.len t n * c' k) -
        (nd t (n + 1) - nd t n) * ∑ k ∈ Finset.range order, env₂ (fresh "K") i (n * order + k) * c k| ≤
        (nd t (n + 1) - nd t n) * ((((1 + f.u) ^ 2 - 1) * (γ + e) + e) * κ) := by
    intro n hn c c' γ e hγ he i hi
    have hh := sub_nonneg.mpr (ht n hn).1
    rw [Finset.mul_sum, ← Finset.sum_sub_distrib]
    refine (Finset.abs_sum_le_sum_abs _ _).trans ?_
    refine le_trans (Finset.sum_le_sum fun k hk => ?_) (le_trans (le_of_eq (Finset.sum_mul _ (fun k => (nd t (n + 1) - nd t n) *
      (((1 + f.u) ^ 2 - 1) * (|c k| + |c' k - c k|) + |c' k - c k|)) κ).symm) ?_)
    · rw [show env₂ (fresh "K") i (n * order + k) * f.rnd (f.len t n * c' k) -
        (nd t (n + 1) - nd t n) * (env₂ (fresh "K") i (n * order + k) * c k) =
        (f.rnd (f.len t n * c' k) - (nd t (n + 1) - nd t n) * c k) * env₂ (fresh "K") i (n * order + k) by ring, abs_mul]
      exact mul_le_mul (f.coef_err t n (ht n hn).1 (c k) (c' k) _ le_rfl) (hK _ (block_lt hn (Finset.mem_range.mp hk)) i hi)
        (abs_nonneg _) (by positivity)
    · rw [← Finset.mul_sum, mul_assoc]
      refine mul_le_mul_of_nonneg_left (mul_le_mul_of_nonneg_right ?_ hκ) hh
      rw [Finset.sum_add_distrib, ← Finset.mul_sum, Finset.sum_add_distrib]
      exact add_le_add (mul_le_mul_of_nonneg_left (add_le_add hγ he) hu2) he
  have hX : ∀ n < t.length - 1, ∀ j < order, ∀ i < d.x.rows, |s'.X.val env₂ i (n * order + j) -
      (env₂ (fresh "x") i n + (nd t (n + 1) - nd t n) * ∑ k ∈ Finset.range order, env₂ (fresh "K") i (n * order + k) * wA tau j k)| ≤
        H * ηA * κ := by
    intro n hn j hj i hi
    rw [b'.X env₂ i n j hn hj, add_sub_add_left_eq_sub, mul_assoc]
    exact (row n hn (fun k => wA tau j k) (fun k => f.fA tau j k) α α' (hα j hj) (hα' j hj) i hi).trans
      (mul_le_mul_of_nonneg_right (ht n hn).2 (by positivity))
  -- one point
  have point : ∀ n j, n < t.length - 1 → j < order → ∀ δ, 0 ≤ δ →
      (∀ i < d.x.rows, |s.X.val env₁ i (n * order + j) - s'.X.val env₂ i (n * order + j)| ≤ δ) →
      (∀ i < d.x.rows, |env₁ (fresh "K") i (n * order + j) - env₂ (fresh "K") i (n * order + j)| ≤ L * δ + G * (tol + Lt * ω)) ∧
      ∀ k < d.z.rows, |env₁ (fresh "Z") k (n * order + j) - env₂ (fresh "Z") k (n * order + j)| ≤ Lz * δ + Gz * (tol + Lt * ω) := by
    intro n j hn hj δ hδ0 hδ
    have hc := block_lt hn hj
    obtain ⟨e₁, a₁⟩ := exists_atPoint hcs pre b.toCore env₁ hc
    obtain ⟨e₂, a₂⟩ := exists_atPoint hcs pre b'.toCore env₂ hc
    have v₁ := a₁.vals pre b.toCore
    have v₂ := a₂.vals pre b'.toCore
    rw [div_block hj] at v₁ v₂
    obtain ⟨e₃, v₃⟩ := exists_vals hcs pre (fun i => env₂ (fresh "K") i (n * order + j)) (fun i => s'.X.val env₂ i (n * order + j))
      (fun i => env₂ (fresh "Z") i (n * order + j)) (fun i => env₂ (fresh "u") i n)
      (fun i => env₂ (fresh "P") i (if rep then n * order + j else 0)) (nd s.tc (n * order + j)) (tdpAt tdp_fun (nd s.tc (n * order + j))).e
    have hr := tl.lipschitz _ _ _ _ _ _ _ e₂ e₃ v₂ v₃
    have htc : |nd s'.tc (n * order + j) - nd s.tc (n * order + j)| ≤ ω := by
      rw [b'.tc n j hn hj, b.tc n j hn hj]
      refine (f.time_err t n (ht n hn).1 _).trans (add_le_add (mul_le_mul_of_nonneg_left (hR n hn) hu0) (mul_le_mul_of_nonneg_left ?_ hu3))
      have h2 := h01 j (by rw [pre.len]; exact hj)
      rw [abs_of_nonneg h2.1]
      exact (mul_le_of_le_one_right (sub_nonneg.mpr (ht n hn).1) h2.2).trans (ht n hn).2
    obtain ⟨q1, q2⟩ := reg.regular e₁ e₃ (fun i hi => by rw [v₁.u i hi, v₃.u i hi, hu n hn i hi])
      (fun i hi => by
        rw [v₁.p i hi, v₃.p i hi]
        refine hp _ ?_ i hi
        cases rep
        · exact Nat.one_pos
        · exact hc) (by rw [v₁.t, v₃.t]) (fun i hi l hl => by rw [v₁.tdp i hi l hl, v₃.tdp i hi l hl]) δ (tol + Lt * ω) hδ0 (by positivity)
      (fun i hi => by rw [v₁.x i hi, v₃.x i hi]; exact hδ i hi) (fun i hi => by
        have k1 := r₁ _ hc i hi
        have k2 := r₂ _ hc i hi
        rw [(a₁.out hcs pre b.toCore hc).1 i hi] at k1
        rw [(a₂.out hcs pre b'.toCore hc).1 i hi] at k2
        have k3 := (hr i hi).trans (mul_le_mul_of_nonneg_left htc hLt)
        rw [abs_le] at k1 k2 k3 ⊢
        have htl : tol = tol₁ + tol₂ := rfl
        constructor <;> linarith [k1.1, k1.2, k2.1, k2.2, k3.1, k3.2])
    refine ⟨fun i hi => ?_, fun k hk => ?_⟩
    · have := q1 i hi
      rwa [v₁.xdot i hi, v₃.xdot i hi] at this
    · have := q2 k hk
      rwa [v₁.z k hk, v₃.z k hk] at this
  -- one interval
  have interval : ∀ n < t.length - 1, ∀ a, 0 ≤ a → (∀ i < d.x.rows, |env₁ (fresh "x") i n - env₂ (fresh "x") i n| ≤ a) →
      ∀ j < order, ∀ i < d.x.rows, |env₁ (fresh "K") i (n * order + j) - env₂ (fresh "K") i (n * order + j)| ≤ (L * a + g) / (1 - θ) ∧
        |s.X.val env₁ i (n * order + j) - s'.X.val env₂ i (n * order + j)| ≤ (a + H * α * g) / (1 - θ) + H * ηA * κ := by
    intro n hn a ha hxa j hj i hi
    have := interval_inexact d.x.rows order (wA tau) (nd t (n + 1) - nd t n) H α L θ g a
      ⟨sub_nonneg.mpr (ht n hn).1, (ht n hn).2⟩ hL hg ha hα0 hα hθ hstep (fun i => env₁ (fresh "x") i n)
      (fun i => env₂ (fresh "x") i n) (fun i l => env₁ (fresh "K") i (n * order + l)) (fun i l => env₂ (fresh "K") i (n * order + l)) hxa
      (fun j hj δ hδ0 hδ i hi => by
        refine ((point n j hn hj (δ + H * ηA * κ) (by positivity) (fun i hi => ?_)).1 i hi).trans (le_of_eq ?_)
        · have k1 := hδ i hi
          have k2 := hX n hn j hj i hi
          rw [b.X env₁ i n j hn hj]
          simp only [stageState] at k1
          rw [abs_le] at k1 k2 ⊢
          constructor <;> linarith [k1.1, k1.2, k2.1, k2.2]
        · simp only [g]; ring) j hj i hi
    refine ⟨this.1, ?_⟩
    have k1 := this.2
    have k2 := hX n hn j hj i hi
    rw [b.X env₁ i n j hn hj]
    simp only [stageState] at k1
    rw [abs_le] at k1 k2 ⊢
    constructor <;> linarith [k1.1, k1.2, k2.1, k2.2]
  have hbnd : ∀ n ≤ t.length - 1, ∀ i < d.x.rows, |env₁ (fresh "x") i n - env₂ (fresh "x") i n| ≤ bound n := by
    refine gronwall_inexact (nd t) (t.length - 1) (fun n hn => (ht n hn).1) Λ (β * g / (1 - θ) + ηb * κ) tol (by positivity) (by positivity)
      htol0 ε (fun n a => ∀ i < d.x.rows, |env₁ (fresh "x") i n - env₂ (fresh "x") i n| ≤ a) h0 ?_
      (fun n a a' haa h i hi => (h i hi).trans haa) hε
    intro n hn a ha hxa i hi
    have hk := interval n hn a ha hxa
    have e₁ := c₁ n hn i hi
    have e₂ := c₂ n hn i hi
    have e₃ := row n hn (fun k => wb tau k) (fun k => f.fb tau k) β β' hβ hβ' i hi
    rw [b.cont _ i n hn] at e₁
    rw [b'.cont _ i n hn] at e₂
    have hsum : |∑ l ∈ Finset.range order, (env₁ (fresh "K") i (n * order + l) - env₂ (fresh "K") i (n * order + l)) * wb tau l| ≤
        (L * a + g) / (1 - θ) * β := by
      refine (Finset.abs_sum_le_sum_abs _ _).trans ?_
      refine le_trans ?_ (mul_le_mul_of_nonneg_left hβ (by positivity))
      rw [Finset.mul_sum]
      refine Finset.sum_le_sum fun l hl => ?_
      rw [abs_mul]
      exact mul_le_mul_of_nonneg_right (hk l (Finset.mem_range.mp hl) i hi).1 (abs_nonneg _)
    have hh := sub_nonneg.mpr (ht n hn).1
    have h3 : |(nd t (n + 1) - nd t n) * (∑ l ∈ Finset.range order, env₁ (fresh "K") i (n * order + l) * wb tau l) -
        (nd t (n + 1) - nd t n) * ∑ l ∈ Finset.range order, env₂ (fresh "K") i (n * order + l) * wb tau l| ≤
        (nd t (n + 1) - nd t n) * ((L * a + g) / (1 - θ) * β) := by
      rw [← mul_sub, ← Finset.sum_sub_distrib, abs_mul, abs_of_nonneg hh]
      refine mul_le_mul_of_nonneg_left ?_ hh
      simpa only [sub_mul] using hsum
    have h6 : (nd t (n + 1) - nd t n) * ((L * a + g) / (1 - θ) * β) + (nd t (n + 1) - nd t n) * (ηb * κ) =
        (nd t (n + 1) - nd t n) * (Λ * a + (β * g / (1 - θ) + ηb * κ)) := by
      simp only [Λ]
      field_simp
      ring
    rw [← h6]
    have h7 : tol = tol₁ + tol₂ := rfl
    have h8 := hxa i hi
    have h9 : ηb * κ = (((1 + f.u) ^ 2 - 1) * (β + β') + β') * κ := rfl
    rw [← h9] at e₃
    rw [abs_le] at e₁ e₂ e₃ h3 h8 ⊢
    constructor <;> linarith [e₁.1, e₁.2, e₂.1, e₂.2, e₃.1, e₃.2, h3.1, h3.2, h8.1, h8.2]
  have hb0 : ∀ n ≤ t.length - 1, 0 ≤ bound n := by
    intro n hn
    have : 0 ≤ nd t n - nd t 0 := by
      clear_value bound
      induction n with
      | zero => simp
      | succ n ih => have := ih (by omega); have := (ht n (by omega)).1; linarith
    have : 0 ≤ β * g / (1 - θ) + ηb * κ := by positivity
    positivity
  refine ⟨hbnd, fun n hn j hj => ?_⟩
  have hi := interval n hn (bound n) (hb0 n hn.le) (hbnd n hn.le) j hj
  refine ⟨hi, fun k hk => ?_⟩
  refine (point n j hn hj ((bound n + H * α * g) / (1 - θ) + H * ηA * κ) ?_ (fun i hi' => (hi i hi').2)).2 k hk
  have := hb0 n hn.le
  positivity

/-- **C118** (accuracy) The states of an assignment that solves the scheme with rounded coefficients up to `tol` differ from an exact
solution of the model at most by the bounds of C88 plus terms that are proportional to the unit roundoff, the errors of the tableau and the
tolerance. -/
theorem C118_accuracy (hcs : IsCsFunction csFunction)
    (pre : SchemePre freshI casadiPoints csFunction dae t order method tdp_fun d xdot res tau F)
    (hs' : f.schemeNew fresh freshI casadiPoints csFunction dae t order method tdp_fun rep = .ok s')
    (hf : [fresh "x", fresh "K", fresh "Z", fresh "u", fresh "P"].Nodup)
    (L Lz G Gz Lt θ : ℝ) (reg : RegularDae d xdot res L Lz G Gz) (tl : TimeLipschitz d xdot res tdp_fun Lt) (hsol : Solvable d xdot res)
    (hd : tau.Nodup) (h01 : ∀ k < tau.length, nd tau k ∈ Icc (0 : ℝ) 1)
    (T T' : ButcherTableau ℝ) (hT : butcherTableuForCollocationPoints tau = .ok T) (hT' : f.butcherTableau tau = .ok T')
    (α β H α' β' R : ℝ)
    (hα : ∀ j < order, ∑ k ∈ Finset.range order, |T.A.e [j, k]| ≤ α) (hβ : ∑ k ∈ Finset.range order, |T.b.e [k]| ≤ β)
    (hα' : ∀ j < order, ∑ k ∈ Finset.range order, |T'.A.e [j, k] - T.A.e [j, k]| ≤ α')
    (hβ' : ∑ k ∈ Finset.range order, |T'.b.e [k] - T.b.e [k]| ≤ β')
    (ht : ∀ n < t.length - 1, nd t n ≤ nd t (n + 1) ∧ nd t (n + 1) - nd t n ≤ H) (hR : ∀ n < t.length - 1, |nd t n| ≤ R)
    (hθ : θ < 1) (hstep : L * (H * α) ≤ θ)
    (env : Env ℝ) (tol ε κ : ℝ) (heq : ∀ v ∈ s'.eq.vals env, |v| ≤ tol) (htol : 0 ≤ tol)
    (hrep : rep = true → ∀ c < (t.length - 1) * order, ∀ i < d.np, s'.p.val env i c = s'.p.val env i 0)
    (hκ : 0 ≤ κ) (hK : ∀ c < (t.length - 1) * order, ∀ i < d.nx, |s'.Kd.val env i c| ≤ κ)
    (y : ℕ → ℝ → ℝ) (v ζ : ℕ → ℕ → ℝ → ℝ)
    (ex : ExactDae d xdot res tdp_fun t (s'.u.val env) (fun i => s'.p.val env i 0) y v ζ) (B : ℝ)
    (hsm : ∀ n < t.length - 1, ∀ i < d.nx, ContDiffOn ℝ order (v n i) (Icc (nd t n) (nd t (n + 1))))
    (hB : ∀ n < t.length - 1, ∀ i < d.nx, ∀ τ ∈ Icc (nd t n) (nd t (n + 1)),
      |iteratedDerivWithin order (v n i) (Icc (nd t n) (nd t (n + 1))) τ| ≤ B) (hB0 : 0 ≤ B)
    (hε : 0 ≤ ε) (h0 : ∀ i < d.nx, |s'.x.val env i 0 - y i (nd t 0)| ≤ ε) :
    let ηA := ((1 + f.u) ^ 2 - 1) * (α + α') + α'
    let ηb := ((1 + f.u) ^ 2 - 1) * (β + β') + β'
    let ω := f.u * R + ((1 + f.u) ^ 3 - 1) * H
    let g := G * (tol + Lt * ω) + L * (H * ηA * κ)
    let Λ := β * L / (1 - θ)
    let D := B * H ^ order / ((order - 1).factorial : ℝ)
    ∀ n ≤ t.length - 1, ∀ i < d.nx, |s'.x.val env i n - y i (nd t n)| ≤ Real.exp (Λ * (nd t n - nd t 0)) *
      (ε + (nd t n - nd t 0) * ((1 + β + Λ * H * (1 + α)) * D + β * g / (1 - θ) + ηb * κ) + n * tol) := by
  intro ηA ηb ω g Λ D n hn i hi
  obtain ⟨s, s'', hs, hs'', e1, e2, e3, e4, e5, e6, e7, -⟩ := f.C118_constructed fresh freshI casadiPoints csFunction dae t order method
    tdp_fun d xdot res tau F rep pre
  obtain rfl : s' = s'' := Except.ok.inj (hs'.symm.trans hs'')
  have b := pre.built hs
  have hN := b.N_eq
  have hM := b.M_eq
  have ix := reg.indexOne pre.wf.res_cols
  rw [e7] at hrep
  rw [e4] at hK
  rw [e6, e7] at ex
  rw [e3] at h0 ⊢
  obtain ⟨env', heq', hx', hu', hp'⟩ := C88_exists fresh freshI casadiPoints csFunction dae t order method tdp_fun d xdot res tau F rep s
    hcs pre hs hf L Lz θ ix hsol hθ T hT (by
      intro n hn j hj
      rw [b.N_eq] at hn
      rw [b.M_eq] at hj ⊢
      refine le_trans (mul_le_mul_of_nonneg_left ?_ ix.nonneg) hstep
      rw [abs_of_nonneg (sub_nonneg.mpr (ht n hn).1)]
      exact mul_le_mul (ht n hn).2 (hα j hj) (Finset.sum_nonneg fun _ _ => abs_nonneg _)
        ((sub_nonneg.mpr (ht n hn).1).trans (ht n hn).2)) env (by rw [hN, hM]; exact hrep) (fun i => s.x.val env i 0)
  have hu'' : s.u.val env' = s.u.val env := by
    funext i n
    exact hu' i n
  have k1 := (f.C118_states fresh freshI casadiPoints csFunction dae t order method tdp_fun d xdot res tau F rep s s' hcs pre hs hs'
    L Lz G Gz Lt θ reg tl h01 T T' hT hT' α β H α' β' R (by rw [hM]; exact hα) (by rw [hM]; exact hβ) (by rw [hM]; exact hα')
    (by rw [hM]; exact hβ') (by rw [hN]; exact ht) (by rw [hN]; exact hR) hθ hstep env' env 0 tol 0 κ
    (fun v hv => by rw [heq' v hv, abs_zero]) heq ⟨le_rfl, htol⟩ hκ (by rw [hN, hM]; exact hK)
    (fun n _ i _ => hu' i n) (fun n _ i _ => hp' i n) le_rfl (fun i hi => by rw [hx' i, sub_self, abs_zero])).1
  have k2 := (C88_convergence fresh freshI casadiPoints csFunction dae t order method tdp_fun d xdot res tau F rep s hcs pre hs hf
    L Lz θ ix hd h01 T hT α β H (by rw [hM]; exact hα) (by rw [hM]; exact hβ) (by rw [hN]; exact ht) hθ hstep env'
    heq' y v ζ (by rw [hu'', show (fun i => s.p.val env' i 0) = fun i => s.p.val env i 0 from funext fun i => hp' i 0]; exact ex) B ε
    (by rw [hN, hM]; exact hsm) (by rw [hN, hM]; exact hB) hB0 hε (fun i hi => by rw [hx' i]; exact h0 i hi)).1
  rw [hN] at k1 k2
  rw [hM] at k2
  have h1 := k1 n hn i hi
  have h2 := k2 n hn i hi
  rw [abs_sub_comm] at h1
  have h3 : s.x.val env i n - y i (nd t n) = (s.x.val env i n - s.x.val env' i n) + (s.x.val env' i n - y i (nd t n)) := by ring
  rw [h3]
  refine (abs_add_le _ _).trans ((add_le_add h1 h2).trans (le_of_eq ?_))
  simp only [Λ, D, g, ηA, ηb, ω, zero_add]
  ring

/-- **C118** (ends, refuted) For Radau nodes the last collocation point of an interval is its end; with doubles it is not: on the grid
`[-1, 0.1]` the model, `tdp_fun` included, is evaluated at `0.10000000000000009` in place of `0.1`. -/
theorem C118_end_refuted (pre : SchemePre freshI casadiPoints csFunction dae [-1, Flt.tenth] order method tdp_fun d xdot res tau F)
    (hend : nd tau (order - 1) = 1)
    (hs : Scheme.new fresh freshI casadiPoints csFunction dae [-1, Flt.tenth] order method tdp_fun rep = .ok s)
    (hs' : doubleC.schemeNew fresh freshI casadiPoints csFunction dae [-1, Flt.tenth] order method tdp_fun rep = .ok s') :
    nd s.tc (order - 1) = Flt.tenth ∧ nd s'.tc (order - 1) = 225179981368525 / 2 ^ 51 ∧ (225179981368525 / 2 ^ 51 : ℝ) ≠ Flt.tenth := by
  have b := pre.built hs
  obtain ⟨s'', h1, b'⟩ := doubleC.schemeNew_built (fresh := fresh) rep pre
  obtain rfl : s' = s'' := Except.ok.inj (hs'.symm.trans h1)
  have hpos := pre.pos
  have e1 := b.tc 0 (order - 1) Nat.one_pos (by omega)
  have e2 := b'.tc 0 (order - 1) Nat.one_pos (by omega)
  rw [Nat.zero_mul, Nat.zero_add, hend] at e1 e2
  refine ⟨?_, ?_, by unfold Flt.tenth; norm_num⟩
  · rw [e1]
    simp [nd]
  · rw [e2, mul_one, ← Flt.exT_last]
    simp only [len, Flt.scaled, one_mul]
    rw [add_comm]
    rfl

end

end FltC

/-! ## Non-vacuity -/

/-- `x' = -z`, `0 = z - x` does not depend on the time. -/
theorem loop_timeLipschitz (freshI : String → ℕ) :
    TimeLipschitz (loopD freshI) (.sym (freshI "xdot") 1) (loopRes freshI) none 0 := by
  refine ⟨le_rfl, fun v ξ w u p τ τ' e e' h h' i hi => le_of_eq ?_⟩
  have h1 : e (freshI "xdot") 0 0 = e' (freshI "xdot") 0 0 := (h.xdot 0 Nat.one_pos).trans (h'.xdot 0 Nat.one_pos).symm
  have h2 : e 0 0 0 = e' 0 0 0 := (h.x 0 Nat.one_pos).trans (h'.x 0 Nat.one_pos).symm
  have h3 : e 1 0 0 = e' 1 0 0 := (h.z 0 Nat.one_pos).trans (h'.z 0 Nat.one_pos).symm
  rw [zero_mul, abs_eq_zero, sub_eq_zero]
  simp only [loopRes]
  split
  · obtain rfl : i = 0 := by omega
    rw [h1, h3]
  · rw [h2, h3]

/-- Midpoint rule for `x' = -z`, `0 = z - x` with coefficients in double precision on steps of at most 1: the states of a solution up to `tol`
with derivatives of at most `κ` differ from those of the scheme with exact coefficients at most by
`exp(2*t)*(t*(4*tol + 2^-48*κ) + n*tol)`. -/
example (freshI : String → ℕ) (hI : 7 ≤ freshI "xdot") (t : List ℝ) (two : 2 ≤ t.length) (h0 : nd t 0 = 0)
    (ht : ∀ n < t.length - 1, nd t n ≤ nd t (n + 1) ∧ nd t (n + 1) - nd t n ≤ 1) : ∃ s s',
    Scheme.new exFresh freshI (fun _ _ => .ok [1 / 2]) idealCsFunction loopO t 1 "legendre" none = .ok s ∧
    FltC.doubleC.schemeNew exFresh freshI (fun _ _ => .ok [1 / 2]) idealCsFunction loopO t 1 "legendre" none = .ok s' ∧
    ∀ env env' tol κ, 0 ≤ tol → 0 ≤ κ → (∀ v ∈ s.eq.vals env, v = 0) → (∀ v ∈ s'.eq.vals env', |v| ≤ tol) →
      (∀ c < t.length - 1, |s.Kd.val env' 0 c| ≤ κ) → s.x.val env 0 0 = s.x.val env' 0 0 →
      ∀ n ≤ t.length - 1, |s.x.val env 0 n - s.x.val env' 0 n| ≤ Real.exp (2 * nd t n) * (nd t n * (4 * tol + κ / 2 ^ 48) + n * tol) := by
  obtain ⟨F, pre⟩ := loop_pre freshI hI t [1 / 2] two (by simp)
  obtain ⟨s, s', hs, hs', -⟩ := FltC.doubleC.C118_constructed exFresh freshI _ _ _ _ _ _ _ _ _ _ _ _ false pre
  have b := pre.built hs
  have hN : s.N = t.length - 1 := b.N_eq
  have hM : s.M = 1 := b.M_eq
  obtain ⟨T, hT, hA, hB, -⟩ := C09_butcher_consistent ([1 / 2] : List ℝ) (by simp) (by simp)
  obtain ⟨T1, hT1, -, -, -, hc, -⟩ := C08_butcher_exact ([1 / 2] : List ℝ) (by simp)
  rw [hT] at hT1
  cases hT1
  have hA0 : T.A.e [0, 0] = 1 / 2 := by
    have := hA 0 (by simp)
    rw [hc 0 (by simp)] at this
    simpa using this
  have hB0 : T.b.e [0] = 1 := by simpa using hB
  obtain ⟨T2, T', h2, hT', -, -, -, herr⟩ := FltC.doubleC.C116_tableau [1 / 2] (by simp)
  rw [hT] at h2
  cases h2
  obtain ⟨e1, e2⟩ := herr 0 (by simp)
  have e1 := e1 0 (by simp)
  have du : FltC.doubleC.u = 1 / 2 ^ 53 := rfl
  rw [hA0, du] at e1
  rw [hB0, du] at e2
  norm_num [nd] at e1 e2
  refine ⟨s, s', hs, hs', fun env env' tol κ htol hκ h h' hK hx n hn => ?_⟩
  have key := (FltC.doubleC.C118_states exFresh freshI _ _ _ _ _ _ _ _ _ _ _ _ false s s' idealCsFunction_spec pre hs hs' 1 1 2 1 0 (1 / 2)
    (loop_regular freshI) (loop_timeLipschitz freshI) (fun k hk => by
      obtain rfl : k = 0 := by simpa using hk
      norm_num [nd]) T T' hT hT' (1 / 2) 1 1 (1 / 2 ^ 51) (1 / 2 ^ 50) (∑ n ∈ Finset.range (t.length - 1), |nd t n|) (fun j hj => by
      rw [hM] at hj ⊢
      obtain rfl : j = 0 := by omega
      rw [Finset.sum_range_one, hA0]
      norm_num) (by rw [hM, Finset.sum_range_one, hB0, abs_one]) (fun j hj => by
      rw [hM] at hj ⊢
      obtain rfl : j = 0 := by omega
      rw [Finset.sum_range_one, hA0]
      exact e1.trans (by norm_num)) (by
      rw [hM, Finset.sum_range_one, hB0]
      exact e2.trans (by norm_num)) (by rw [hN]; exact ht) (by
      rw [hN]
      exact fun n hn => Finset.single_le_sum (f := fun n => |nd t n|) (fun _ _ => abs_nonneg _) (Finset.mem_range.mpr hn))
    (by norm_num) (by norm_num) env env' 0 tol 0 κ
    (fun v hv => by rw [h v hv, abs_zero]) h' ⟨le_rfl, htol⟩ hκ (fun c hc i hi => by
      obtain rfl : i = 0 := by change i < 1 at hi; omega
      rw [hN, hM, Nat.mul_one] at hc
      exact hK c hc) (fun n _ i hi => absurd hi (Nat.not_lt_zero _))
    (fun c _ i hi => absurd hi (Nat.not_lt_zero _)) le_rfl (fun i hi => by
      obtain rfl : i = 0 := by change i < 1 at hi; omega
      rw [hx, sub_self, abs_zero])).1 n (by rw [hN]; exact hn) 0 Nat.one_pos
  have htn : 0 ≤ nd t n := by
    clear key
    induction n with
    | zero => exact h0.ge
    | succ n ih => have := ih (by omega); have := (ht n (by omega)).1; linarith
  rw [h0, du] at key
  refine key.trans ?_
  norm_num
  refine mul_le_mul_of_nonneg_left ?_ (Real.exp_nonneg _)
  refine add_le_add (mul_le_mul_of_nonneg_left ?_ htn) le_rfl
  linarith

end CE
