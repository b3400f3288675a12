import Verif.Num.LemContract
import Verif.Num.PropsStable

/-!
# Property C95: contractive models have exactly one collocation solution, whatever the lengths of the steps
-/

open Polynomial

namespace CE

/-- The two assignments give the model the same inputs, parameters and time. -/
structure SameInputs (d : DaeObj ℝ) (e e' : Env ℝ) : Prop where
  u : ∀ i < d.nu, d.u.val e i 0 = d.u.val e' i 0
  p : ∀ i < d.np, d.p.val e i 0 = d.p.val e' i 0
  t : d.t.val e 0 0 = d.t.val e' 0 0
  tdp : ∀ i < d.tdp.rows, ∀ j < d.tdp.cols, d.tdp.val e i j = d.tdp.val e' i j

theorem SameInputs.trans {d : DaeObj ℝ} {e₁ e₂ e₃ : Env ℝ} (h : SameInputs d e₁ e₂) (h' : SameInputs d e₂ e₃) : SameInputs d e₁ e₃ :=
  ⟨fun i hi => (h.u i hi).trans (h'.u i hi), fun i hi => (h.p i hi).trans (h'.p i hi), h.t.trans h'.t,
    fun i hi j hj => (h.tdp i hi j hj).trans (h'.tdp i hi j hj)⟩

theorem SameInputs.symm {d : DaeObj ℝ} {e₁ e₂ : Env ℝ} (h : SameInputs d e₁ e₂) : SameInputs d e₂ e₁ :=
  ⟨fun i hi => (h.u i hi).symm, fun i hi => (h.p i hi).symm, h.t.symm, fun i hi j hj => (h.tdp i hi j hj).symm⟩

theorem SameInputs.refl (d : DaeObj ℝ) (e : Env ℝ) : SameInputs d e e := ⟨fun _ _ => rfl, fun _ _ => rfl, rfl, fun _ _ _ _ => rfl⟩

/-- The model is an ordinary differential equation `xdot = ode` whose right-hand side is Lipschitz continuous in the state on
every bounded set, with a constant that may depend on the set and on the inputs, parameters and time. -/
structure LocLipschitzOde (d : DaeObj ℝ) (xdot res ode : MXExpr ℝ) : Prop where
  nz : d.nz = 0
  explicit : ∀ e, ResidualZero res e ↔ ∀ i < d.nx, xdot.val e i 0 = ode.val e i 0
  lipschitz : ∀ (e₀ : Env ℝ) (R : ℝ), ∃ L : ℝ, ∀ e e' : Env ℝ, SameInputs d e₀ e → SameInputs d e₀ e' →
    (∀ i < d.nx, |d.x.val e i 0| ≤ R ∧ |d.x.val e' i 0| ≤ R) →
    ∀ δ, (∀ i < d.nx, |d.x.val e i 0 - d.x.val e' i 0| ≤ δ) → ∀ i < d.nx, |ode.val e i 0 - ode.val e' i 0| ≤ L * δ

/-- One interval: the stage equations of a contractive right-hand side have a solution. -/
theorem stage_exists (tau : List ℝ) (hnode : IsGauss tau ∨ IsRadau tau) (hpos : 0 < tau.length) (S : ℕ → ℕ → ℝ) (m : ℕ)
    (hpd : ∀ v : ℕ → ℝ, (∃ i < m, v i ≠ 0) → 0 < qform S m v) (h : ℝ) (hh : 0 < h) (g : ℕ → (ℕ → ℝ) → ℕ → ℝ)
    (hlip : ∀ j < tau.length, ∀ R : ℝ, ∃ L : ℝ, ∀ ξ ξ' : ℕ → ℝ, (∀ i < m, |ξ i| ≤ R ∧ |ξ' i| ≤ R) →
      ∀ δ, (∀ i < m, |ξ i - ξ' i| ≤ δ) → ∀ i < m, |g j ξ i - g j ξ' i| ≤ L * δ)
    (hcon : ∀ j < tau.length, ∀ ξ ξ' : ℕ → ℝ, ∑ i ∈ Finset.range m, ∑ l ∈ Finset.range m, S i l *
      ((g j ξ i - g j ξ' i) * (ξ l - ξ' l) + (ξ i - ξ' i) * (g j ξ l - g j ξ' l)) ≤ 0) (x0 : ℕ → ℝ) :
    ∃ k : ℕ → ℕ → ℝ, ∀ i < m, ∀ j < tau.length, k i j = g j (stageState (wA tau) tau.length h x0 k j) i := by
  classical
  obtain ⟨w, hw, hform⟩ := stage_form_pos tau hnode hpos
  let M := tau.length
  let ι := Fin m × Fin M
  let E := EuclideanSpace ℝ ι
  let ext : E → ℕ → ℕ → ℝ := fun k i j => if hi : i < m ∧ j < M then k (⟨i, hi.1⟩, ⟨j, hi.2⟩) else 0
  have hext : ∀ (k : E) (q : ι), ext k q.1 q.2 = k q := fun k q => dif_pos ⟨q.1.2, q.2.2⟩
  have hext' : ∀ (k : E) i j (hi : i < m) (hj : j < M), ext k i j = k (⟨i, hi⟩, ⟨j, hj⟩) := fun k i j hi hj => dif_pos ⟨hi, hj⟩
  have hext_add : ∀ (k k' : E) i j, ext (k + k') i j = ext k i j + ext k' i j := by
    intro k k' i j
    simp only [ext]
    split_ifs
    · rfl
    · rw [add_zero]
  have hext_smul : ∀ (a : ℝ) (k : E) i j, ext (a • k) i j = a * ext k i j := by
    intro a k i j
    simp only [ext]
    split_ifs
    · rfl
    · rw [mul_zero]
  have hext_sub : ∀ (k k' : E) i j, ext (k - k') i j = ext k i j - ext k' i j := by
    intro k k' i j
    simp only [ext]
    split_ifs
    · rfl
    · rw [sub_zero]
  have hss_add : ∀ (k k' : E) i j, stageSum tau (ext (k + k')) i j = stageSum tau (ext k) i j + stageSum tau (ext k') i j := by
    intro k k' i j
    simp only [stageSum, hext_add, add_mul, Finset.sum_add_distrib]
  have hss_smul : ∀ (a : ℝ) (k : E) i j, stageSum tau (ext (a • k)) i j = a * stageSum tau (ext k) i j := by
    intro a k i j
    simp only [stageSum, hext_smul, mul_assoc, Finset.mul_sum]
  have hss_sub : ∀ (k k' : E) i j, stageSum tau (ext (k - k')) i j = stageSum tau (ext k) i j - stageSum tau (ext k') i j := by
    intro k k' i j
    simp only [stageSum, hext_sub, sub_mul, Finset.sum_sub_distrib]
  let L : E →ₗ[ℝ] E :=
    { toFun := fun k => WithLp.toLp 2 fun q : ι => w q.2 * ∑ l ∈ Finset.range m, (S q.1 l + S l q.1) * stageSum tau (ext k) l q.2
      map_add' := by
        intro k k'
        ext q
        simp only [hss_add, mul_add, Finset.sum_add_distrib]
        rfl
      map_smul' := by
        intro a k
        ext q
        show _ = a * (w q.2 * ∑ l ∈ Finset.range m, (S q.1 l + S l q.1) * stageSum tau (ext k) l q.2)
        simp only [hss_smul]
        rw [Finset.mul_sum, Finset.mul_sum, Finset.mul_sum]
        refine Finset.sum_congr rfl fun l _ => ?_
        ring }
  -- the inner product with `L` as a sum over the nodes
  have hin : ∀ (r : ℕ → ℕ → ℝ) (a k : E), (∀ q : ι, a q = r q.1 q.2) → @inner ℝ _ _ a (L k) = ∑ j ∈ Finset.range M, w j *
      ∑ i ∈ Finset.range m, ∑ l ∈ Finset.range m, S i l * (r i j * stageSum tau (ext k) l j + stageSum tau (ext k) i j * r l j) := by
    intro r a k ha
    rw [PiLp.inner_apply, Fintype.sum_prod_type_right]
    rw [← Fin.sum_univ_eq_sum_range (fun j => w j * ∑ i ∈ Finset.range m, ∑ l ∈ Finset.range m,
      S i l * (r i j * stageSum tau (ext k) l j + stageSum tau (ext k) i j * r l j)) M]
    refine Finset.sum_congr rfl fun j _ => ?_
    have e1 : ∀ i : Fin m, @inner ℝ _ _ (a (i, j)) ((L k) (i, j)) =
        w j * ∑ l ∈ Finset.range m, (S i l + S l i) * (r i j * stageSum tau (ext k) l j) := by
      intro i
      rw [ha]
      show (w j * ∑ l ∈ Finset.range m, (S i l + S l i) * stageSum tau (ext k) l j) * r i j = _
      rw [mul_assoc, Finset.sum_mul]
      congr 1
      refine Finset.sum_congr rfl fun l _ => ?_
      ring
    simp only [e1]
    rw [← Finset.mul_sum]
    congr 1
    rw [Fin.sum_univ_eq_sum_range (fun i => ∑ l ∈ Finset.range m, (S i l + S l i) * (r i j * stageSum tau (ext k) l j)) m]
    simp only [add_mul, mul_add, Finset.sum_add_distrib]
    congr 1
    rw [Finset.sum_comm]
    refine Finset.sum_congr rfl fun i _ => Finset.sum_congr rfl fun l _ => ?_
    ring
  have hL : ∀ z ≠ 0, 0 < @inner ℝ _ _ z (L z) := by
    intro z hz
    rw [hin (ext z) z z (fun q => (hext z q).symm)]
    refine hform S m hpd (ext z) ?_
    by_contra hcon
    push Not at hcon
    apply hz
    ext q
    rw [← hext]
    exact hcon q.1 q.1.2 q.2 q.2.2
  let gE : E → E := fun k => WithLp.toLp 2 fun q : ι => g q.2 (stageState (wA tau) M h x0 (ext k) q.2) q.1
  have hstate : ∀ k i j, stageState (wA tau) M h x0 (ext k) j i = x0 i + h * stageSum tau (ext k) i j := fun k i j => rfl
  have hmono : ∀ k k', @inner ℝ _ _ (gE k - gE k') (L (k - k')) ≤ 0 := by
    intro k k'
    rw [hin (fun i j => g j (stageState (wA tau) M h x0 (ext k) j) i - g j (stageState (wA tau) M h x0 (ext k') j) i) _ _
      (fun q => rfl)]
    refine Finset.sum_nonpos fun j hj => mul_nonpos_of_nonneg_of_nonpos (hw j (Finset.mem_range.mp hj)).le ?_
    have h1 := hcon j (Finset.mem_range.mp hj) (stageState (wA tau) M h x0 (ext k) j) (stageState (wA tau) M h x0 (ext k') j)
    simp only [hss_sub]
    refine nonpos_of_mul_nonpos_right (le_trans (le_of_eq ?_) h1) hh
    rw [Finset.mul_sum]
    refine Finset.sum_congr rfl fun i _ => ?_
    rw [Finset.mul_sum]
    refine Finset.sum_congr rfl fun l _ => ?_
    simp only [hstate]
    ring
  have hcoord : ∀ (k : E) (q : ι), |k q| ≤ ‖k‖ := by
    intro k q
    rw [EuclideanSpace.norm_eq]
    refine Real.le_sqrt_of_sq_le ?_
    rw [sq_abs]
    have := Finset.single_le_sum (f := fun q => ‖k q‖ ^ 2) (fun q _ => sq_nonneg _) (Finset.mem_univ q)
    simpa only [Real.norm_eq_abs, sq_abs] using this
  have hext_le : ∀ (k : E) i j, |ext k i j| ≤ ‖k‖ := by
    intro k i j
    simp only [ext]
    split_ifs
    · exact hcoord _ _
    · rw [abs_zero]; exact norm_nonneg _
  let α := ∑ j ∈ Finset.range M, ∑ l ∈ Finset.range M, |wA tau j l|
  have hα0 : 0 ≤ α := Finset.sum_nonneg fun _ _ => Finset.sum_nonneg fun _ _ => abs_nonneg _
  have hss_le : ∀ (k : E) i, ∀ j < M, |stageSum tau (ext k) i j| ≤ α * ‖k‖ := by
    intro k i j hj
    refine (Finset.abs_sum_le_sum_abs _ _).trans ?_
    have h1 : ∑ l ∈ Finset.range M, |wA tau j l| ≤ α :=
      Finset.single_le_sum (f := fun j => ∑ l ∈ Finset.range M, |wA tau j l|)
        (fun _ _ => Finset.sum_nonneg fun _ _ => abs_nonneg _) (Finset.mem_range.mpr hj)
    refine le_trans ?_ (mul_le_mul_of_nonneg_right h1 (norm_nonneg k))
    rw [Finset.sum_mul]
    refine Finset.sum_le_sum fun l _ => ?_
    rw [abs_mul, mul_comm]
    exact mul_le_mul_of_nonneg_left (hext_le k i l) (abs_nonneg _)
  let X0 := ∑ i ∈ Finset.range m, |x0 i|
  have hX0 : ∀ i < m, |x0 i| ≤ X0 := fun i hi =>
    Finset.single_le_sum (f := fun i => |x0 i|) (fun _ _ => abs_nonneg _) (Finset.mem_range.mpr hi)
  have hlipE : ∀ R : ℝ, ∃ C : ℝ, ∀ x y, ‖x‖ ≤ R → ‖y‖ ≤ R → ‖gE x - gE y‖ ≤ C * ‖x - y‖ := by
    intro R
    choose! Lj hLj using fun j (hj : j < M) => hlip j hj (X0 + h * (α * R))
    let C₁ := ∑ j ∈ Finset.range M, |Lj j|
    refine ⟨√(Fintype.card ι) * (C₁ * (h * α)), fun x y hx hy => ?_⟩
    have hC0 : 0 ≤ C₁ := Finset.sum_nonneg fun _ _ => abs_nonneg _
    have hb : ∀ z : E, ‖z‖ ≤ R → ∀ j < M, ∀ i < m, |stageState (wA tau) M h x0 (ext z) j i| ≤ X0 + h * (α * R) := by
      intro z hz j hj i hi
      rw [hstate]
      refine (abs_add_le _ _).trans (add_le_add (hX0 i hi) ?_)
      rw [abs_mul, abs_of_pos hh]
      exact mul_le_mul_of_nonneg_left ((hss_le z i j hj).trans (mul_le_mul_of_nonneg_left hz hα0)) hh.le
    have hc : ∀ q : ι, |(gE x - gE y) q| ≤ C₁ * (h * α) * ‖x - y‖ := by
      intro q
      have h1 := hLj q.2 q.2.2 (stageState (wA tau) M h x0 (ext x) q.2) (stageState (wA tau) M h x0 (ext y) q.2)
        (fun i hi => ⟨hb x hx q.2 q.2.2 i hi, hb y hy q.2 q.2.2 i hi⟩) (h * (α * ‖x - y‖)) (by
          intro i hi
          rw [hstate, hstate, add_sub_add_left_eq_sub, ← mul_sub, ← hss_sub, abs_mul, abs_of_pos hh]
          exact mul_le_mul_of_nonneg_left (hss_le _ i q.2 q.2.2) hh.le) q.1 q.1.2
      refine h1.trans ?_
      rw [mul_assoc C₁, ← mul_assoc h]
      refine mul_le_mul_of_nonneg_right ?_ (by positivity)
      exact (le_abs_self _).trans (Finset.single_le_sum (f := fun j => |Lj j|) (fun _ _ => abs_nonneg _)
        (Finset.mem_range.mpr q.2.2))
    rw [EuclideanSpace.norm_eq, mul_assoc]
    have h2 : ∑ q, ‖(gE x - gE y) q‖ ^ 2 ≤ Fintype.card ι * (C₁ * (h * α) * ‖x - y‖) ^ 2 := by
      refine (Finset.sum_le_card_nsmul _ _ ((C₁ * (h * α) * ‖x - y‖) ^ 2) fun q _ => ?_).trans (le_of_eq ?_)
      · exact pow_le_pow_left₀ (norm_nonneg _) (hc q) 2
      · rw [nsmul_eq_mul]; rfl
    refine (Real.sqrt_le_sqrt h2).trans (le_of_eq ?_)
    rw [Real.sqrt_mul (Nat.cast_nonneg _), Real.sqrt_sq (by positivity)]
  obtain ⟨k, hk⟩ := exists_fixed_of_monotone L hL gE hmono hlipE
  refine ⟨ext k, fun i hi j hj => ?_⟩
  rw [hext' k i j hi hj]
  conv_lhs => rw [← hk]

/-- Such a right-hand side is determined by the state, the inputs, the parameters and the time. -/
theorem LocLipschitzOde.dep {d : DaeObj ℝ} {xdot res ode : MXExpr ℝ} (lip : LocLipschitzOde d xdot res ode) {e e' : Env ℝ}
    (hs : SameInputs d e e') (hx : ∀ i < d.nx, d.x.val e i 0 = d.x.val e' i 0) : ∀ i < d.nx, ode.val e i 0 = ode.val e' i 0 := by
  obtain ⟨L, hL⟩ := lip.lipschitz e (∑ i ∈ Finset.range d.nx, |d.x.val e i 0|)
  have hb : ∀ i < d.nx, |d.x.val e i 0| ≤ ∑ i ∈ Finset.range d.nx, |d.x.val e i 0| := fun i hi =>
    Finset.single_le_sum (f := fun i => |d.x.val e i 0|) (fun _ _ => abs_nonneg _) (Finset.mem_range.mpr hi)
  intro i hi
  have := hL e e' (.refl d e) hs (fun i hi => ⟨hb i hi, by rw [← hx i hi]; exact hb i hi⟩) 0
    (fun i hi => by rw [hx i hi, sub_self, abs_zero]) i hi
  rw [mul_zero] at this
  exact sub_eq_zero.mp (abs_nonpos_iff.mp this)

section
variable (fresh freshI : String → ℕ) (casadiPoints : ℕ → String → Except PyErr (List ℝ))
    (csFunction : List (MXExpr ℝ) → List (MXExpr ℝ) → Except PyErr (CsFn ℝ))
    (dae : DaeObj ℝ) (t : List ℝ) (order : ℕ) (method : String) (tdp_fun : Option (ℝ → Mat ℝ))
    (d : DaeObj ℝ) (xdot res : MXExpr ℝ) (tau : List ℝ) (F : CsFn ℝ) (rep : Bool) (s : Scheme ℝ)

/-- Two assignments that belong to the same point. -/
theorem sameInputs_atPoint (pre : SchemePre freshI casadiPoints csFunction dae t order method tdp_fun d xdot res tau F)
    (b : s.Built fresh t order tdp_fun rep d xdot res tau F) (c : ℕ) (env₁ env₂ e₁ e₂ : Env ℝ)
    (h₁ : AtPoint s d xdot tdp_fun rep env₁ e₁ c) (h₂ : AtPoint s d xdot tdp_fun rep env₂ e₂ c)
    (hu : ∀ i < d.nu, s.u.val env₁ i (c / order) = s.u.val env₂ i (c / order))
    (hp : ∀ i < d.np, s.p.val env₁ i (if rep then c else 0) = s.p.val env₂ i (if rep then c else 0)) : SameInputs d e₁ e₂ := by
  have hnp : d.np = d.p.rows := by simp [DaeObj.np, MXExpr.numel, pre.p]
  refine ⟨?_, ?_, ?_, ?_⟩
  · intro i hi
    have hi' : i < d.u.rows := by rw [← pre.wf.nu]; exact hi
    rw [h₁.u i hi', h₂.u i hi', b.M_eq, hu i hi]
  · intro i hi
    have hi' : i < d.p.rows := hnp ▸ hi
    rw [h₁.p i hi', h₂.p i hi', hp i hi]
  · rw [h₁.t, h₂.t]
  · intro i hi j hj
    have := pre.tdpFun
    cases htf : tdp_fun with
    | none =>
      rw [htf] at this
      simp only at this
      rw [this.1] at hi
      exact absurd hi (Nat.not_lt_zero _)
    | some f => rw [h₁.tdp f htf i hi j hj, h₂.tdp f htf i hi j hj]

/-- The right-hand side at the collocation points as a function of the state there. -/
theorem exists_contractive_rhs (hcs : IsCsFunction csFunction)
    (pre : SchemePre freshI casadiPoints csFunction dae t order method tdp_fun d xdot res tau F)
    (b : s.Built fresh t order tdp_fun rep d xdot res tau F) (ode : MXExpr ℝ) (lip : LocLipschitzOde d xdot res ode)
    (S : ℕ → ℕ → ℝ) (law : Contractive d xdot res S)
    (hf : [fresh "x", fresh "K", fresh "u", fresh "P"].Nodup) (env : Env ℝ) :
    ∃ G : ℕ → (ℕ → ℝ) → ℕ → ℝ,
      (∀ c < (t.length - 1) * order, ∀ R : ℝ, ∃ L : ℝ, ∀ ξ ξ' : ℕ → ℝ, (∀ i < d.nx, |ξ i| ≤ R ∧ |ξ' i| ≤ R) →
        ∀ δ, (∀ i < d.nx, |ξ i - ξ' i| ≤ δ) → ∀ i < d.nx, |G c ξ i - G c ξ' i| ≤ L * δ) ∧
      (∀ c < (t.length - 1) * order, ∀ ξ ξ' : ℕ → ℝ, ∑ i ∈ Finset.range d.nx, ∑ l ∈ Finset.range d.nx, S i l *
        ((G c ξ i - G c ξ' i) * (ξ l - ξ' l) + (ξ i - ξ' i) * (G c ξ l - G c ξ' l)) ≤ 0) ∧
      ∀ env' : Env ℝ, (∀ n < t.length - 1, ∀ i < d.nu, s.u.val env' i n = s.u.val env i n) →
        (∀ c < (if rep then (t.length - 1) * order else 1), ∀ i < d.np, s.p.val env' i c = s.p.val env i c) →
        ((∀ v ∈ s.eq.vals env', v = 0) ↔
          (∀ c < (t.length - 1) * order, ∀ i < d.nx, env' (fresh "K") i c = G c (fun i => s.X.val env' i c) i) ∧
          (∀ n < t.length - 1, ∀ i < d.nx, env' (fresh "x") i (n + 1) = env' (fresh "x") i n +
            (nd t (n + 1) - nd t n) * ∑ k ∈ Finset.range order, env' (fresh "K") i (n * order + k) * wb tau k) ∧
          (rep = true → ∀ c < (t.length - 1) * order, ∀ i < d.np, s.p.val env i c = s.p.val env i 0)) := by
  have hpos := pre.pos
  simp only [List.nodup_cons, List.mem_cons, List.not_mem_nil, or_false, not_or, not_false_eq_true, List.nodup_nil, and_true] at hf
  obtain ⟨⟨f1, f2, f3⟩, ⟨f4, f5⟩, f6⟩ := hf
  -- a scheme assignment with given state and derivative at a point
  let envX : ℕ → (ℕ → ℝ) → (ℕ → ℝ) → Env ℝ := fun c ξ κ id i j =>
    if id = fresh "x" then ξ i - (nd t (c / order + 1) - nd t (c / order)) * (κ i * wA tau (c % order) (c % order))
    else if id = fresh "K" then (if j = c then κ i else 0) else env id i j
  have hex : ∀ (c : ℕ) (ξ κ : ℕ → ℝ), ∃ e, c < (t.length - 1) * order → AtPoint s d xdot tdp_fun rep (envX c ξ κ) e c := by
    intro c ξ κ
    by_cases hc : c < (t.length - 1) * order
    · obtain ⟨e, he⟩ := exists_atPoint hcs pre b.toCore (envX c ξ κ) hc
      exact ⟨e, fun _ => he⟩
    · exact ⟨env, fun h => absurd h hc⟩
  choose E hE using hex
  have hsplit : ∀ c < (t.length - 1) * order, ∃ n j, n < t.length - 1 ∧ j < order ∧ c = n * order + j := fun c hc =>
    ⟨c / order, c % order, Nat.div_lt_of_lt_mul (by rwa [Nat.mul_comm]), Nat.mod_lt _ hpos, (Nat.div_add_mod' c order).symm⟩
  have hX : ∀ c < (t.length - 1) * order, ∀ ξ κ i, s.X.val (envX c ξ κ) i c = ξ i := by
    intro c hc ξ κ i
    obtain ⟨n, j, hn, hj, rfl⟩ := hsplit c hc
    rw [b.X _ i n j hn hj]
    have hk : ∀ k ∈ Finset.range order, envX (n * order + j) ξ κ (fresh "K") i (n * order + k) * wA tau j k =
        if k = j then κ i * wA tau j j else 0 := by
      intro k _
      simp only [envX, if_neg (Ne.symm f1), if_true, Nat.add_left_cancel_iff]
      split_ifs with h
      · rw [h]
      · rw [zero_mul]
    rw [Finset.sum_congr rfl hk, Finset.sum_ite_eq', if_pos (Finset.mem_range.mpr hj)]
    simp only [envX, if_true, div_block hj, mod_block hj]
    ring
  have hK : ∀ c ξ κ i, s.Kd.val (envX c ξ κ) i c = κ i := by
    intro c ξ κ i
    rw [b.Kd]
    show (if fresh "K" = fresh "x" then _ else if fresh "K" = fresh "K" then (if c = c then κ i else 0) else _) = κ i
    rw [if_neg (Ne.symm f1), if_pos rfl, if_pos rfl]
  have hu : ∀ c ξ κ i n, s.u.val (envX c ξ κ) i n = s.u.val env i n := by
    intro c ξ κ i n
    rw [b.u]
    simp [MXExpr.sym, envX, Ne.symm f2, Ne.symm f4]
  have hp : ∀ c ξ κ i n, s.p.val (envX c ξ κ) i n = s.p.val env i n := by
    intro c ξ κ i n
    rw [b.p]
    simp [MXExpr.sym, envX, Ne.symm f3, Ne.symm f5]
  have hsame : ∀ c < (t.length - 1) * order, ∀ ξ κ ξ' κ', SameInputs d (E c ξ κ) (E c ξ' κ') := fun c hc ξ κ ξ' κ' =>
    sameInputs_atPoint fresh freshI casadiPoints csFunction dae t order method tdp_fun d xdot res tau F rep s pre b c _ _ _ _
      (hE c ξ κ hc) (hE c ξ' κ' hc) (fun i _ => by rw [hu, hu]) (fun i _ => by rw [hp, hp])
  have hEx : ∀ c < (t.length - 1) * order, ∀ ξ κ, ∀ i < d.nx, d.x.val (E c ξ κ) i 0 = ξ i := fun c hc ξ κ i hi => by
    rw [(hE c ξ κ hc).x i (by rw [← pre.wf.nx]; exact hi), hX c hc]
  have hEk : ∀ c < (t.length - 1) * order, ∀ ξ κ, ∀ i < d.nx, xdot.val (E c ξ κ) i 0 = κ i := fun c hc ξ κ i hi => by
    rw [(hE c ξ κ hc).xdot i (by rw [← pre.wf.nx]; exact hi), hK c]
  let G : ℕ → (ℕ → ℝ) → ℕ → ℝ := fun c ξ i => ode.val (E c ξ fun _ => 0) i 0
  refine ⟨G, ?_, ?_, ?_⟩
  · intro c hc R
    obtain ⟨L, hL⟩ := lip.lipschitz (E c (fun _ => 0) fun _ => 0) R
    refine ⟨L, fun ξ ξ' hb δ hδ => hL _ _ (hsame c hc _ _ _ _) (hsame c hc _ _ _ _) (fun i hi => ?_) δ fun i hi => ?_⟩
    · rw [hEx c hc _ _ i hi, hEx c hc _ _ i hi]; exact hb i hi
    · rw [hEx c hc _ _ i hi, hEx c hc _ _ i hi]; exact hδ i hi
  · intro c hc ξ ξ'
    have hres : ∀ ξ, ResidualZero res (E c ξ (G c ξ)) := by
      intro ξ
      rw [lip.explicit]
      intro i hi
      rw [hEk c hc _ _ i hi]
      exact lip.dep (hsame c hc _ _ _ _) (fun i hi => by rw [hEx c hc _ _ i hi, hEx c hc _ _ i hi]) i hi
    have hsi := hsame c hc ξ (G c ξ) ξ' (G c ξ')
    refine le_trans (le_of_eq ?_) (law _ _ (hres ξ) (hres ξ') hsi.u hsi.p hsi.t hsi.tdp)
    refine Finset.sum_congr rfl fun i hi => Finset.sum_congr rfl fun l hl => ?_
    have hi := Finset.mem_range.mp hi
    have hl := Finset.mem_range.mp hl
    rw [hEk c hc _ _ i hi, hEk c hc _ _ i hi, hEk c hc _ _ l hl, hEk c hc _ _ l hl, hEx c hc _ _ i hi, hEx c hc _ _ i hi,
      hEx c hc _ _ l hl, hEx c hc _ _ l hl]
  · intro env' hu' hp'
    rw [Scheme.eq_zero_iff pre b]
    have hres : ∀ c < (t.length - 1) * order, (∀ i < res.rows, s.eqCollocation.val env' i c = 0) ↔
        ∀ i < d.nx, env' (fresh "K") i c = G c (fun i => s.X.val env' i c) i := by
      intro c hc
      obtain ⟨e, he⟩ := exists_atPoint hcs pre b.toCore env' hc
      have h1 : (∀ i < res.rows, s.eqCollocation.val env' i c = 0) ↔ ResidualZero res e := by
        constructor
        · intro h i hi j hj
          rw [pre.wf.res_cols] at hj
          have hj : j = 0 := by omega
          subst hj
          rw [← (he.out hcs pre b.toCore hc).1 i hi]
          exact h i hi
        · intro h i hi
          rw [(he.out hcs pre b.toCore hc).1 i hi]
          exact h i hi 0 (by rw [pre.wf.res_cols]; exact Nat.one_pos)
      rw [h1, lip.explicit]
      refine forall_congr' fun i => forall_congr' fun hi => ?_
      have hsi := sameInputs_atPoint fresh freshI casadiPoints csFunction dae t order method tdp_fun d xdot res tau F rep s pre b c
        env' (envX c (fun i => s.X.val env' i c) fun _ => 0) e _ he (hE c _ _ hc)
        (fun i hi => by rw [hu, hu' _ (Nat.div_lt_of_lt_mul (by rwa [Nat.mul_comm])) i hi])
        (fun i hi => by rw [hp, hp' _ (by split_ifs; exacts [hc, Nat.one_pos]) i hi])
      have h2 := lip.dep hsi (fun i hi => by
        rw [hEx c hc _ _ i hi, he.x i (by rw [← pre.wf.nx]; exact hi)]) i hi
      rw [h2, he.xdot i (by rw [← pre.wf.nx]; exact hi), b.Kd]
      rfl
    refine and_congr (forall_congr' fun c => forall_congr' fun hc => hres c hc) (and_congr ?_ ?_)
    · refine forall_congr' fun n => forall_congr' fun hn => forall_congr' fun i => forall_congr' fun _ => ?_
      rw [b.cont env' i n hn, sub_eq_zero]
      exact eq_comm
    · refine forall_congr' fun hr => forall_congr' fun c => forall_congr' fun hc => forall_congr' fun i => forall_congr' fun hi => ?_
      subst hr
      simp only [if_true] at hp'
      rw [hp' c hc i hi, hp' 0 (by omega) i hi]

/-- **C95** For an ordinary differential equation that is contractive with respect to a positive definite form, with a right-hand
side that is Lipschitz continuous on bounded sets, and with Gauss or Radau nodes, the collocation equations have a solution with
given initial state, inputs and parameter, whatever the lengths of the intervals. -/
theorem C95_exists (hcs : IsCsFunction csFunction)
    (pre : SchemePre freshI casadiPoints csFunction dae t order method tdp_fun d xdot res tau F)
    (hs : Scheme.new fresh freshI casadiPoints csFunction dae t order method tdp_fun rep = .ok s)
    (hf : [fresh "x", fresh "K", fresh "u", fresh "P"].Nodup) (ode : MXExpr ℝ) (lip : LocLipschitzOde d xdot res ode)
    (hnode : IsGauss tau ∨ IsRadau tau) (S : ℕ → ℕ → ℝ) (hpd : ∀ v : ℕ → ℝ, (∃ i < d.nx, v i ≠ 0) → 0 < qform S d.nx v)
    (law : Contractive d xdot res S) (ht : ∀ n < s.N, nd t n < nd t (n + 1))
    (env : Env ℝ) (hrep : rep = true → ∀ c < s.N * s.M, ∀ i < d.np, s.p.val env i c = s.p.val env i 0) (x0 : ℕ → ℝ) :
    ∃ env', (∀ v ∈ s.eq.vals env', v = 0) ∧ (∀ i, s.x.val env' i 0 = x0 i) ∧
      (∀ i n, s.u.val env' i n = s.u.val env i n) ∧ (∀ i c, s.p.val env' i c = s.p.val env i c) := by
  have b := pre.built hs
  have hpos := pre.pos
  obtain ⟨G, hG, hGc, hiff⟩ := exists_contractive_rhs fresh freshI casadiPoints csFunction dae t order method tdp_fun d xdot res tau F
    rep s hcs pre b ode lip S law hf env
  rw [b.N_eq] at ht
  rw [b.N_eq, b.M_eq] at hrep
  simp only [List.nodup_cons, List.mem_cons, List.not_mem_nil, or_false, not_or, not_false_eq_true, List.nodup_nil, and_true] at hf
  obtain ⟨⟨f1, f2, f3⟩, ⟨f4, f5⟩, f6⟩ := hf
  have hlen := pre.len
  -- the stages of interval n from a state
  have hst : ∀ (n : ℕ) (ξ : ℕ → ℝ), ∃ k : ℕ → ℕ → ℝ, n < t.length - 1 → ∀ i < d.nx, ∀ j < order,
      k i j = G (n * order + j) (stageState (wA tau) order (nd t (n + 1) - nd t n) ξ k j) i := by
    intro n ξ
    by_cases hn : n < t.length - 1
    · obtain ⟨k, hk⟩ := stage_exists tau hnode (by rw [hlen]; exact hpos) S d.nx hpd (nd t (n + 1) - nd t n)
        (sub_pos.mpr (ht n hn)) (fun j => G (n * order + j))
        (fun j hj => hG _ (block_lt hn (by rwa [hlen] at hj))) (fun j hj => hGc _ (block_lt hn (by rwa [hlen] at hj))) ξ
      rw [hlen] at hk
      exact ⟨k, fun _ => hk⟩
    · exact ⟨fun _ _ => 0, fun h => absurd h hn⟩
  choose k hk using hst
  let xs : ℕ → ℕ → ℝ := fun n => Nat.rec x0 (fun n ξ i => ξ i + (nd t (n + 1) - nd t n) * ∑ l ∈ Finset.range order, k n ξ i l * wb tau l) n
  have hxs : ∀ n i, xs (n + 1) i = xs n i + (nd t (n + 1) - nd t n) * ∑ l ∈ Finset.range order, k n (xs n) i l * wb tau l :=
    fun n i => rfl
  let env' : Env ℝ := fun id i j => if id = fresh "x" then xs j i else
    if id = fresh "K" then k (j / order) (xs (j / order)) i (j % order) else env id i j
  have ex : ∀ i n, env' (fresh "x") i n = xs n i := fun i n => if_pos rfl
  have ek : ∀ i n j, j < order → env' (fresh "K") i (n * order + j) = k n (xs n) i j := by
    intro i n j hj
    show (if fresh "K" = fresh "x" then _ else if fresh "K" = fresh "K" then _ else _) = _
    rw [if_neg (Ne.symm f1), if_pos rfl, div_block hj, mod_block hj]
  have hu : ∀ i n, s.u.val env' i n = s.u.val env i n := by
    intro i n
    rw [b.u]
    simp [MXExpr.sym, env', Ne.symm f2, Ne.symm f4]
  have hp : ∀ i c, s.p.val env' i c = s.p.val env i c := by
    intro i c
    rw [b.p]
    simp [MXExpr.sym, env', Ne.symm f3, Ne.symm f5]
  refine ⟨env', (hiff env' (fun n _ i _ => hu i n) (fun c _ i _ => hp i c)).mpr ⟨?_, ?_, hrep⟩, ?_, hu, hp⟩
  · intro c hc i hi
    obtain ⟨n, j, hn, hj, rfl⟩ : ∃ n j, n < t.length - 1 ∧ j < order ∧ c = n * order + j :=
      ⟨c / order, c % order, Nat.div_lt_of_lt_mul (by rwa [Nat.mul_comm]), Nat.mod_lt _ hpos, (Nat.div_add_mod' c order).symm⟩
    rw [ek i n j hj, hk n (xs n) hn i hi j hj]
    congr 1
    funext i'
    rw [b.X env' i' n j hn hj, ex]
    refine congrArg₂ _ rfl (congrArg₂ _ rfl (Finset.sum_congr rfl fun l hl => ?_))
    rw [ek i' n l (Finset.mem_range.mp hl)]
  · intro n hn i hi
    rw [ex i (n + 1), ex i n, hxs]
    refine congrArg₂ _ rfl (congrArg₂ _ rfl (Finset.sum_congr rfl fun l hl => ?_))
    rw [ek i n l (Finset.mem_range.mp hl)]
  · intro i
    rw [b.x]
    exact ex i 0

/-- **C95** ... and only one: for every model that is contractive with respect to a positive definite form, with or without
algebraic states, two solutions of the collocation equations with the same initial state, inputs and parameter have the same
states and derivatives at all points. -/
theorem C95_unique (hcs : IsCsFunction csFunction)
    (pre : SchemePre freshI casadiPoints csFunction dae t order method tdp_fun d xdot res tau F)
    (hs : Scheme.new fresh freshI casadiPoints csFunction dae t order method tdp_fun rep = .ok s)
    (hnode : IsGauss tau ∨ IsRadau tau) (S : ℕ → ℕ → ℝ) (hpd : ∀ v : ℕ → ℝ, (∃ i < d.nx, v i ≠ 0) → 0 < qform S d.nx v)
    (law : Contractive d xdot res S) (ht : ∀ n < s.N, nd t n < nd t (n + 1))
    (env₁ env₂ : Env ℝ) (h₁ : ∀ v ∈ s.eq.vals env₁, v = 0) (h₂ : ∀ v ∈ s.eq.vals env₂, v = 0)
    (hx : ∀ i < d.nx, s.x.val env₁ i 0 = s.x.val env₂ i 0) (hu : ∀ n < s.N, ∀ i < d.nu, s.u.val env₁ i n = s.u.val env₂ i n)
    (hp : ∀ i < d.np, s.p.val env₁ i 0 = s.p.val env₂ i 0) :
    (∀ n ≤ s.N, ∀ i < d.nx, s.x.val env₁ i n = s.x.val env₂ i n) ∧
    (∀ c < s.N * s.M, ∀ i < d.nx, s.Kd.val env₁ i c = s.Kd.val env₂ i c ∧ s.X.val env₁ i c = s.X.val env₂ i c) := by
  have b := pre.built hs
  have hpos := pre.pos
  have hlen := pre.len
  have hd := (C94_inside tau hnode).1
  have hxn := C81_unique fresh freshI casadiPoints csFunction dae t order method tdp_fun d xdot res tau F rep s hcs pre hs hd S hnode hpd
    ht law env₁ env₂ h₁ h₂ hu hp hx
  have h25 := fun env => C25_equations fresh freshI casadiPoints csFunction dae t order method tdp_fun d xdot res tau F rep s hcs pre hs
    hd (fun n hn => (ht n hn).ne) env
  obtain ⟨hres₁, -, hpar₁⟩ := (h25 env₁).1.mp h₁
  obtain ⟨hres₂, -, hpar₂⟩ := (h25 env₂).1.mp h₂
  obtain ⟨w, hw, hform⟩ := stage_form_pos tau hnode (by rw [hlen]; exact hpos)
  have hN := b.N_eq
  have hM := b.M_eq
  have ex : ∀ (env : Env ℝ) i n, s.x.val env i n = env (fresh "x") i n := fun env i n => by rw [b.x]; rfl
  have ek : ∀ (env : Env ℝ) i n, s.Kd.val env i n = env (fresh "K") i n := fun env i n => by rw [b.Kd]; rfl
  have hkeq : ∀ n < s.N, ∀ i < d.nx, ∀ j < order, s.Kd.val env₁ i (n * order + j) = s.Kd.val env₂ i (n * order + j) := by
    intro n hn
    have hn' : n < t.length - 1 := by rw [← hN]; exact hn
    have hh := sub_pos.mpr (ht n hn)
    let k : ℕ → ℕ → ℝ := fun i j => s.Kd.val env₁ i (n * order + j) - s.Kd.val env₂ i (n * order + j)
    have hX : ∀ i < d.nx, ∀ j < order, s.X.val env₁ i (n * order + j) - s.X.val env₂ i (n * order + j) =
        (nd t (n + 1) - nd t n) * stageSum tau k i j := by
      intro i hi j hj
      rw [b.X env₁ i n j hn' hj, b.X env₂ i n j hn' hj, ← ex env₁, ← ex env₂, hxn n hn.le i hi, add_sub_add_left_eq_sub, ← mul_sub,
        ← Finset.sum_sub_distrib, stageSum, hlen]
      congr 1
      refine Finset.sum_congr rfl fun l _ => ?_
      rw [← ek env₁, ← ek env₂, ← sub_mul]
    by_contra hcon
    push Not at hcon
    obtain ⟨i, hi, j, hj, hij⟩ := hcon
    have hp0 := hform S d.nx hpd k ⟨i, hi, j, by rw [hlen]; exact hj, sub_ne_zero.mpr hij⟩
    refine absurd hp0 (not_lt.mpr (Finset.sum_nonpos fun j hj => mul_nonpos_of_nonneg_of_nonpos
      (hw j (Finset.mem_range.mp hj)).le ?_))
    have hj : j < order := by rw [← hlen]; exact Finset.mem_range.mp hj
    have hc : n * order + j < s.N * s.M := by rw [hM]; exact block_lt hn hj
    obtain ⟨e₁, hat₁⟩ := (h25 env₁).2.1 _ hc
    obtain ⟨e₂, hat₂⟩ := (h25 env₂).2.1 _ hc
    have hsi := sameInputs_atPoint fresh freshI casadiPoints csFunction dae t order method tdp_fun d xdot res tau F rep s pre b _
      env₁ env₂ e₁ e₂ hat₁ hat₂ (fun i hi => by rw [div_block hj]; exact hu n hn i hi) (fun i hi => by
        cases rep with
        | false => exact hp i hi
        | true => rw [if_pos rfl, hpar₁ rfl _ hc i hi, hpar₂ rfl _ hc i hi]; exact hp i hi)
    have h0 := law e₁ e₂ (hres₁ _ hc e₁ hat₁) (hres₂ _ hc e₂ hat₂) hsi.u hsi.p hsi.t hsi.tdp
    refine nonpos_of_mul_nonpos_right (le_trans (le_of_eq ?_) h0) hh
    rw [Finset.mul_sum]
    refine Finset.sum_congr rfl fun i hi => ?_
    rw [Finset.mul_sum]
    refine Finset.sum_congr rfl fun l hl => ?_
    have hi := Finset.mem_range.mp hi
    have hl := Finset.mem_range.mp hl
    have hi' : i < d.x.rows := by rw [← pre.wf.nx]; exact hi
    have hl' : l < d.x.rows := by rw [← pre.wf.nx]; exact hl
    rw [hat₁.x i hi', hat₁.x l hl', hat₂.x i hi', hat₂.x l hl', hat₁.xdot i hi', hat₁.xdot l hl', hat₂.xdot i hi', hat₂.xdot l hl',
      hX i hi j hj, hX l hl j hj]
    simp only [k]
    ring
  refine ⟨hxn, fun c hc i hi => ?_⟩
  rw [hM] at hc
  obtain ⟨n, j, hn, hj, rfl⟩ : ∃ n j, n < s.N ∧ j < order ∧ c = n * order + j :=
    ⟨c / order, c % order, Nat.div_lt_of_lt_mul (by rwa [Nat.mul_comm]), Nat.mod_lt _ hpos, (Nat.div_add_mod' c order).symm⟩
  have hn' : n < t.length - 1 := by rw [← hN]; exact hn
  refine ⟨hkeq n hn i hi j hj, ?_⟩
  rw [b.X env₁ i n j hn' hj, b.X env₂ i n j hn' hj, ← ex env₁, ← ex env₂, hxn n hn.le i hi]
  refine congrArg₂ _ rfl (congrArg₂ _ rfl (Finset.sum_congr rfl fun l hl => ?_))
  rw [← ek env₁, ← ek env₂, hkeq n hn i hi l (Finset.mem_range.mp hl)]

end

/-! ## Non-vacuity: `x' = -x^3`, which is Lipschitz continuous on bounded sets only -/

/-- The model. -/
noncomputable def cubeO : DaeObj ℝ :=
  ⟨.sym 0 1, .sym 1 0, .sym 2 0, .sym 3 0, .sym 4 1, ⟨1, 1, false, fun env _ _ => env 0 0 0⟩, .sym 5 0,
    .semi ⟨1, 1, false, fun env _ _ => -env 0 0 0 ^ 3⟩ ⟨0, 1, false, fun _ _ _ => 0⟩⟩

/-- Its residual. -/
noncomputable def cubeRes (freshI : String → ℕ) : MXExpr ℝ :=
  ⟨1, 1, false, fun env i j => if i < 1 then env (freshI "xdot") i j - -env 0 0 0 ^ 3 else 0⟩

/-- Its implicit form. -/
noncomputable def cubeD (freshI : String → ℕ) : DaeObj ℝ :=
  ⟨.sym 0 1, .sym 1 0, .sym 2 0, .sym 3 0, .sym 4 1, ⟨1, 1, false, fun env _ _ => env 0 0 0⟩, .sym 5 0, .implicit (.sym (freshI "xdot") 1) (cubeRes freshI)⟩

theorem cube_pre (freshI : String → ℕ) (hI : 7 ≤ freshI "xdot") (t tau : List ℝ) (two : 2 ≤ t.length) (pos : 0 < tau.length) :
    ∃ F : CsFn ℝ, SchemePre freshI (fun _ _ => .ok tau) idealCsFunction cubeO t tau.length "legendre" none (cubeD freshI)
        (.sym (freshI "xdot") 1) (cubeRes freshI) tau F := by
  have hfun := isFunctionOf_syms (K := ℝ) [(freshI "xdot", 1, 1), (0, 1, 1), (1, 0, 1), (2, 0, 1), (3, 0, 1), (4, 1, 1), (5, 0, 1)]
    (by simp; omega) [cubeRes freshI, ⟨1, 1, false, fun env _ _ => env 0 0 0⟩] (by
      intro o ho env1 env2 h
      simp only [List.mem_cons, List.not_mem_nil, or_false, forall_eq_or_imp, forall_eq] at h ho
      have h0 := h.2.1 0 (by omega) 0 (by omega)
      rcases ho with rfl | rfl
      · refine ⟨rfl, rfl, ?_⟩
        intro i hi j hj
        have hx := h.1 i hi j hj
        simp only [cubeRes, MXExpr.at', h0, hx]
      · exact ⟨rfl, rfl, fun i _ j _ => h0⟩)
  have hF : ∃ F, idealCsFunction [MXExpr.sym (freshI "xdot") 1, .sym 0 1, .sym 1 0, .sym 2 0, .sym 3 0, .sym 4 1, .sym 5 0]
      [cubeRes freshI, ⟨1, 1, false, fun env _ _ => env 0 0 0⟩] = .ok F := by
    unfold idealCsFunction
    rw [dif_pos ⟨_, hfun⟩]
    exact ⟨_, rfl⟩
  obtain ⟨F, hF⟩ := hF
  exact ⟨F, rfl, ⟨rfl, rfl, rfl, rfl, ⟨rfl, rfl⟩, rfl, rfl, rfl, rfl⟩, rfl, rfl, two, pos, rfl, rfl, ⟨rfl, rfl⟩, hF⟩

theorem cube_lipschitz (freshI : String → ℕ) : LocLipschitzOde (cubeD freshI) (.sym (freshI "xdot") 1) (cubeRes freshI)
    ⟨1, 1, false, fun env _ _ => -env 0 0 0 ^ 3⟩ := by
  refine ⟨rfl, ?_, ?_⟩
  · intro e
    constructor
    · intro h i hi
      obtain rfl : i = 0 := by change i < 1 at hi; omega
      have := h 0 Nat.one_pos 0 Nat.one_pos
      simp only [cubeRes, Nat.zero_lt_one, if_true] at this
      exact sub_eq_zero.mp this
    · intro h i hi j hj
      obtain rfl : i = 0 := by change i < 1 at hi; omega
      obtain rfl : j = 0 := by change j < 1 at hj; omega
      have := h 0 Nat.one_pos
      simp only [cubeRes, Nat.zero_lt_one, if_true]
      exact sub_eq_zero.mpr this
  · intro e₀ R
    refine ⟨3 * R ^ 2, fun e e' _ _ hb δ hδ i _ => ?_⟩
    have h1 : |e 0 0 0 - e' 0 0 0| ≤ δ := hδ 0 Nat.one_pos
    have h2 : |e 0 0 0| ≤ R := (hb 0 Nat.one_pos).1
    have h3 : |e' 0 0 0| ≤ R := (hb 0 Nat.one_pos).2
    show |(-e 0 0 0 ^ 3) - (-e' 0 0 0 ^ 3)| ≤ _
    rw [show -e 0 0 0 ^ 3 - -e' 0 0 0 ^ 3 = -((e 0 0 0 ^ 2 + e 0 0 0 * e' 0 0 0 + e' 0 0 0 ^ 2) * (e 0 0 0 - e' 0 0 0)) by ring, abs_neg, abs_mul]
    refine mul_le_mul ?_ h1 (abs_nonneg _) (by positivity)
    rw [abs_le] at h2 h3 ⊢
    constructor <;> nlinarith

theorem cube_contractive (freshI : String → ℕ) : Contractive (cubeD freshI) (.sym (freshI "xdot") 1) (cubeRes freshI)
    (fun _ _ => 1) := by
  intro e e' h h' _ _ _ _
  have h0 := h 0 Nat.one_pos 0 Nat.one_pos
  have h1 := h' 0 Nat.one_pos 0 Nat.one_pos
  simp only [cubeRes, Nat.zero_lt_one, if_true] at h0 h1
  show ∑ i ∈ Finset.range 1, ∑ j ∈ Finset.range 1, _ ≤ _
  simp only [Finset.sum_range_one, one_mul, cubeD, MXExpr.sym]
  rw [show e (freshI "xdot") 0 0 = -e 0 0 0 ^ 3 by linarith, show e' (freshI "xdot") 0 0 = -e' 0 0 0 ^ 3 by linarith]
  have : 0 ≤ (e 0 0 0 ^ 2 + e 0 0 0 * e' 0 0 0 + e' 0 0 0 ^ 2) * (e 0 0 0 - e' 0 0 0) ^ 2 :=
    mul_nonneg (by nlinarith [sq_nonneg (e 0 0 0 + e' 0 0 0), sq_nonneg (e 0 0 0), sq_nonneg (e' 0 0 0)]) (sq_nonneg _)
  nlinarith

/-- Radau nodes of order 2 on any increasing grid, from any initial value: exactly one solution. -/
example (freshI : String → ℕ) (hI : 7 ≤ freshI "xdot") (t : List ℝ) (two : 2 ≤ t.length)
    (ht : ∀ n < t.length - 1, nd t n < nd t (n + 1)) (a : ℝ) : ∃ s env,
    Scheme.new exFresh freshI (fun _ _ => .ok [1 / 3, 1]) idealCsFunction cubeO t 2 "legendre" none = .ok s ∧
    (∀ v ∈ s.eq.vals env, v = 0) ∧ s.x.val env 0 0 = a ∧
    ∀ env', (∀ v ∈ s.eq.vals env', v = 0) → s.x.val env' 0 0 = a →
      ∀ c < (t.length - 1) * 2, s.X.val env' 0 c = s.X.val env 0 c ∧ s.Kd.val env' 0 c = s.Kd.val env 0 c := by
  obtain ⟨F, pre⟩ := cube_pre freshI hI t [1 / 3, 1] two (by simp)
  obtain ⟨s, hs⟩ := C26_constructed exFresh freshI _ _ _ _ _ _ _ _ _ _ _ _ false pre
  have b := pre.built hs
  have hN : s.N = t.length - 1 := b.N_eq
  have hM : s.M = 2 := b.M_eq
  have hq : ∀ v : ℕ → ℝ, (∃ i < (cubeD freshI).nx, v i ≠ 0) → 0 < qform (fun _ _ => 1) (cubeD freshI).nx v := by
    rintro v ⟨i, hi, hv⟩
    obtain rfl : i = 0 := by change i < 1 at hi; omega
    show 0 < ∑ i ∈ Finset.range 1, ∑ j ∈ Finset.range 1, _
    simp only [Finset.sum_range_one, one_mul]
    exact mul_self_pos.mpr hv
  obtain ⟨env, heq, hx, -, -⟩ := C95_exists exFresh freshI _ _ _ _ _ _ _ _ _ _ _ _ false s idealCsFunction_spec pre hs (by decide) _
    (cube_lipschitz freshI) (.inr isRadau_two) _ hq (cube_contractive freshI) (by rw [hN]; exact ht) (fun _ _ _ => 0)
    (fun h => by cases h) (fun _ => a)
  refine ⟨s, env, hs, heq, hx 0, fun env' h' hx' c hc => ?_⟩
  have := (C95_unique exFresh freshI _ _ _ _ _ _ _ _ _ _ _ _ false s idealCsFunction_spec pre hs (.inr isRadau_two) _ hq
    (cube_contractive freshI) (by rw [hN]; exact ht) env' env h' heq (fun i hi => by
      obtain rfl : i = 0 := by change i < 1 at hi; omega
      rw [hx', hx]) (fun n _ i hi => absurd hi (Nat.not_lt_zero _)) (fun i hi => absurd hi (Nat.not_lt_zero _))).2 c
    (by rw [hN, hM]; exact hc) 0 Nat.one_pos
  exact ⟨this.2, this.1⟩

end CE
