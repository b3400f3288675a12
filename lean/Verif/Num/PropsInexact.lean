import Verif.Num.PropsStiff
import Verif.Num.PropsIndex2

/-!
# Property C97: the equations solved up to a tolerance
-/

open Set

namespace CE

theorem mem_vals {K : Type} [Zero K] (e : MXExpr K) (env : Env K) {i j : ℕ} (hi : i < e.rows) (hj : j < e.cols) :
    e.val env i j ∈ e.vals env := by
  unfold MXExpr.vals
  rw [List.mem_map]
  have hlt : j * e.rows + i < e.cols * e.rows := block_lt hj hi
  refine ⟨j * e.rows + i, List.mem_range.mpr (by rw [Nat.mul_comm e.rows]; exact hlt), ?_⟩
  rw [mod_block hi, div_block hi]

/-- A bound of a family of numbers that is attained. -/
theorem exists_max_abs (f : ℕ → ℕ → ℝ) (m M : ℕ) :
    ∃ κ ≥ 0, (∀ i < m, ∀ j < M, |f i j| ≤ κ) ∧ (κ = 0 ∨ ∃ i < m, ∃ j < M, κ = |f i j|) := by
  rcases Nat.eq_zero_or_pos m with rfl | hm
  · exact ⟨0, le_rfl, fun i hi => absurd hi (Nat.not_lt_zero _), .inl rfl⟩
  rcases Nat.eq_zero_or_pos M with rfl | hM
  · exact ⟨0, le_rfl, fun i _ j hj => absurd hj (Nat.not_lt_zero _), .inl rfl⟩
  obtain ⟨⟨i0, j0⟩, m1, m2⟩ := Finset.exists_max_image (Finset.range m ×ˢ Finset.range M) (fun q => |f q.1 q.2|)
    ⟨(0, 0), by simp [hm, hM]⟩
  obtain ⟨hi0, hj0⟩ : i0 < m ∧ j0 < M := by simpa using m1
  exact ⟨|f i0 j0|, abs_nonneg _, fun i hi j hj => m2 (i, j) (by simp [hi, hj]), .inr ⟨i0, hi0, j0, hj0, rfl⟩⟩

/-- One interval: the differences of the derivatives and states at the points when the derivatives belong to the states up to `g`. -/
theorem interval_inexact (m M : ℕ) (A : ℕ → ℕ → ℝ) (h H α L θ g a : ℝ) (hh : 0 ≤ h ∧ h ≤ H) (hL : 0 ≤ L) (hg : 0 ≤ g) (ha : 0 ≤ a) (hα0 : 0 ≤ α)
    (hα : ∀ j < M, ∑ k ∈ Finset.range M, |A j k| ≤ α) (hθ : θ < 1) (hstep : L * (H * α) ≤ θ) (x x' : ℕ → ℝ) (k k' : ℕ → ℕ → ℝ)
    (hx : ∀ i < m, |x i - x' i| ≤ a)
    (hk : ∀ j < M, ∀ δ, 0 ≤ δ → (∀ i < m, |stageState A M h x k j i - stageState A M h x' k' j i| ≤ δ) → ∀ i < m, |k i j - k' i j| ≤ L * δ + g) :
    ∀ j < M, ∀ i < m, |k i j - k' i j| ≤ (L * a + g) / (1 - θ) ∧
      |stageState A M h x k j i - stageState A M h x' k' j i| ≤ (a + H * α * g) / (1 - θ) := by
  have h1θ : 0 < 1 - θ := by linarith
  obtain ⟨κ, hκ, hmax, hatt⟩ := exists_max_abs (fun i j => k i j - k' i j) m M
  have hHα : 0 ≤ H * α := mul_nonneg (hh.1.trans hh.2) hα0
  have hst : ∀ j < M, ∀ i < m, |stageState A M h x k j i - stageState A M h x' k' j i| ≤ a + H * α * κ := by
    intro j hj i hi
    have h1 := stageState_sub A M h x' k k' j i κ (fun l hl => hmax i hi l hl)
    have h2 : stageState A M h x k j i - stageState A M h x' k' j i =
        (x i - x' i) + (stageState A M h x' k j i - stageState A M h x' k' j i) := by
      simp only [stageState]; ring
    rw [h2]
    refine (abs_add_le _ _).trans (add_le_add (hx i hi) (h1.trans ?_))
    rw [abs_of_nonneg hh.1]
    exact mul_le_mul_of_nonneg_right (mul_le_mul hh.2 (hα j hj) (Finset.sum_nonneg fun _ _ => abs_nonneg _) (hh.1.trans hh.2)) hκ
  have hκb : κ ≤ (L * a + g) / (1 - θ) := by
    rw [le_div_iff₀ h1θ]
    rcases hatt with h0 | ⟨i, hi, j, hj, h0⟩
    · rw [h0, zero_mul]; positivity
    · have h1 := hk j hj (a + H * α * κ) (by positivity) (hst j hj) i hi
      rw [← h0] at h1
      nlinarith [mul_le_mul_of_nonneg_right hstep hκ]
  intro j hj i hi
  refine ⟨(hmax i hi j hj).trans hκb, (hst j hj i hi).trans ?_⟩
  rw [le_div_iff₀ h1θ]
  rw [le_div_iff₀ h1θ] at hκb
  have h1 := mul_le_mul_of_nonneg_left hκb hHα
  nlinarith [mul_le_mul_of_nonneg_right hstep ha]

/-- Gronwall's lemma for two sequences. -/
theorem gronwall_inexact (t : ℕ → ℝ) (N : ℕ) (ht : ∀ n < N, t n ≤ t (n + 1)) (Λ g σ : ℝ) (hΛ : 0 ≤ Λ) (hg : 0 ≤ g) (hσ : 0 ≤ σ) (e : ℝ)
    (p : ℕ → ℝ → Prop) (h0 : p 0 e) (hp : ∀ n < N, ∀ a, 0 ≤ a → p n a → p (n + 1) (a + (t (n + 1) - t n) * (Λ * a + g) + σ))
    (hmono : ∀ n a a', a ≤ a' → p n a → p n a') (he : 0 ≤ e) :
    ∀ n ≤ N, p n (Real.exp (Λ * (t n - t 0)) * (e + (t n - t 0) * g + n * σ)) := by
  have htn : ∀ n ≤ N, 0 ≤ t n - t 0 := by
    intro n
    induction n with
    | zero => intro _; simp
    | succ n ih => intro hn; have := ih (by omega); have := ht n hn; linarith
  intro n
  induction n with
  | zero => intro _; simpa using h0
  | succ n ih =>
    intro hn
    have h1 := htn n (by omega)
    have h2 : 0 ≤ t (n + 1) - t n := sub_nonneg.mpr (ht n hn)
    set E := Real.exp (Λ * (t n - t 0)) with hE
    set a := e + (t n - t 0) * g + n * σ with ha
    have ha0 : 0 ≤ a := by positivity
    have hE1 : 1 ≤ E := Real.one_le_exp (by positivity)
    refine hmono _ _ _ ?_ (hp n hn _ (by positivity) (ih (by omega)))
    have h3 : Λ * (t (n + 1) - t n) + 1 ≤ Real.exp (Λ * (t (n + 1) - t n)) := Real.add_one_le_exp _
    have h4 : Real.exp (Λ * (t (n + 1) - t 0)) = E * Real.exp (Λ * (t (n + 1) - t n)) := by
      rw [hE, ← Real.exp_add]
      ring_nf
    have h5 : 1 ≤ Real.exp (Λ * (t (n + 1) - t 0)) := Real.one_le_exp (mul_nonneg hΛ (htn _ hn))
    have h6 : (E * a) * (Λ * (t (n + 1) - t n) + 1) ≤ Real.exp (Λ * (t (n + 1) - t 0)) * a := by
      rw [h4]
      nlinarith [mul_le_mul_of_nonneg_left h3 (by positivity : 0 ≤ E * a)]
    have h7 : (t (n + 1) - t n) * g + σ ≤ Real.exp (Λ * (t (n + 1) - t 0)) * ((t (n + 1) - t n) * g + σ) :=
      le_mul_of_one_le_left (by positivity) h5
    push_cast
    calc E * a + (t (n + 1) - t n) * (Λ * (E * a) + g) + σ = (E * a) * (Λ * (t (n + 1) - t n) + 1) + ((t (n + 1) - t n) * g + σ) := by ring
      _ ≤ _ := add_le_add h6 h7
      _ = _ := by rw [ha]; ring

/-- Differences of the residual bound differences of the state derivative and the algebraic state, together with differences of the
state (maximum norm), for equal values of the other symbols. -/
structure RegularDae (d : DaeObj ℝ) (xdot res : MXExpr ℝ) (L Lz G Gz : ℝ) : Prop where
  nonneg : 0 ≤ L ∧ 0 ≤ G
  regular : ∀ e e' : Env ℝ, (∀ i < d.u.rows, d.u.val e i 0 = d.u.val e' i 0) → (∀ i < d.p.rows, d.p.val e i 0 = d.p.val e' i 0) →
    d.t.val e 0 0 = d.t.val e' 0 0 → (∀ i < d.tdp.rows, ∀ j < d.tdp.cols, d.tdp.val e i j = d.tdp.val e' i j) →
    ∀ δ ρ, 0 ≤ δ → 0 ≤ ρ → (∀ i < d.x.rows, |d.x.val e i 0 - d.x.val e' i 0| ≤ δ) → (∀ i < res.rows, |res.val e i 0 - res.val e' i 0| ≤ ρ) →
      (∀ i < d.x.rows, |xdot.val e i 0 - xdot.val e' i 0| ≤ L * δ + G * ρ) ∧ ∀ k < d.z.rows, |d.z.val e k 0 - d.z.val e' k 0| ≤ Lz * δ + Gz * ρ

/-- A regular model is of index one (C88). -/
theorem RegularDae.indexOne {d : DaeObj ℝ} {xdot res : MXExpr ℝ} {L Lz G Gz : ℝ} (h : RegularDae d xdot res L Lz G Gz) (hc : res.cols = 1) :
    IndexOne d xdot res L Lz := by
  refine ⟨h.nonneg.1, fun e e' r r' hu hp ht htdp δ hδ hx => ?_⟩
  have := h.regular e e' hu hp ht htdp δ 0 hδ le_rfl hx (fun i hi => by
    rw [r i hi 0 (by rw [hc]; exact Nat.one_pos), r' i hi 0 (by rw [hc]; exact Nat.one_pos), sub_self, abs_zero])
  simpa only [mul_zero, add_zero] using this

/-- **C97** (regular models) A model with the residual `(xdot - ode, alg)` that is semi-explicit in the sense of C88 is regular. -/
theorem C97_semi (d : DaeObj ℝ) (xdot res ode alg : MXExpr ℝ) (hnx : d.nx = d.x.rows) (hnz : d.nz = d.z.rows) (Lx Lf a m : ℝ)
    (se : SemiExplicit d xdot res ode alg Lx Lf a m) (hrows : res.rows = d.nx + d.nz)
    (hres : ∀ e, (∀ i < d.nx, res.val e i 0 = xdot.val e i 0 - ode.val e i 0) ∧ ∀ k < d.nz, res.val e (d.nx + k) 0 = alg.val e k 0) :
    RegularDae d xdot res (Lx + Lf * (a / m)) (a / m) (1 + Lf / m) (1 / m) := by
  obtain ⟨n1, n2, n3, n4⟩ := se.nonneg
  refine ⟨⟨by positivity, by positivity⟩, fun e e' hu hp ht htdp δ ρ hδ0 hρ0 hδ hρ => ?_⟩
  have hz : ∀ k < d.nz, |d.z.val e k 0 - d.z.val e' k 0| ≤ a / m * δ + 1 / m * ρ := by
    intro k hk
    have := se.regular e e' hu hp ht htdp δ ρ hδ0 hρ0 (by rw [hnx]; exact hδ) (fun k hk => by
      rw [← (hres e).2 k hk, ← (hres e').2 k hk]
      exact hρ _ (by omega)) k hk
    rw [div_mul_eq_mul_div, div_mul_eq_mul_div, ← add_div, le_div_iff₀ n4]
    linarith
  refine ⟨fun i hi => ?_, by rw [← hnz]; exact hz⟩
  rw [← hnx] at hi
  have h1 := se.lipschitz e e' hu hp ht htdp δ _ (by rw [hnx]; exact hδ) hz i hi
  have h2 := hρ i (by omega)
  rw [(hres e).1 i hi, (hres e').1 i hi] at h2
  have h3 : xdot.val e i 0 - xdot.val e' i 0 = (xdot.val e i 0 - ode.val e i 0 - (xdot.val e' i 0 - ode.val e' i 0)) +
    (ode.val e i 0 - ode.val e' i 0) := by ring
  rw [h3]
  refine (abs_add_le _ _).trans ((add_le_add h2 h1).trans (le_of_eq ?_))
  ring

section
variable (fresh freshI : String → ℕ) (casadiPoints : ℕ → String → Except PyErr (List ℝ))
    (csFunction : List (MXExpr ℝ) → List (MXExpr ℝ) → Except PyErr (CsFn ℝ))
    (dae : DaeObj ℝ) (t : List ℝ) (order : ℕ) (method : String) (tdp_fun : Option (ℝ → Mat ℝ))
    (d : DaeObj ℝ) (xdot res : MXExpr ℝ) (tau : List ℝ) (F : CsFn ℝ) (rep : Bool) (s : Scheme ℝ)

variable {fresh freshI casadiPoints csFunction dae t order method tdp_fun d xdot res tau F rep s} in
/-- The equations up to a tolerance, part by part. -/
theorem Scheme.eq_tol (pre : SchemePre freshI casadiPoints csFunction dae t order method tdp_fun d xdot res tau F)
    (b : s.Core fresh t order tdp_fun rep d F) {env : Env ℝ} {tol : ℝ} (h : ∀ v ∈ s.eq.vals env, |v| ≤ tol) :
    (∀ c < (t.length - 1) * order, ∀ i < res.rows, |s.eqCollocation.val env i c| ≤ tol) ∧
    ∀ n < t.length - 1, ∀ i < d.x.rows, |s.eqContinuity.val env i n| ≤ tol := by
  have hmem : ∀ v, v ∈ s.eqCollocation.vals env ∨ v ∈ s.eqContinuity.vals env → v ∈ s.eq.vals env := by
    intro v hv
    unfold Scheme.eq
    rw [structMX_vals]
    simp only [stackedVals, List.map_cons, List.map_nil, List.flatten_cons, List.flatten_nil, List.append_nil, List.mem_append]
    exact hv.imp id .inl
  constructor
  · intro c hc i hi
    refine h _ (hmem _ (.inl (mem_vals _ _ ?_ ?_)))
    · rw [b.coll_shape.1, ← pre.wf.res_rows]; exact hi
    · rw [b.coll_shape.2]; exact hc
  · intro n hn i hi
    refine h _ (hmem _ (.inr (mem_vals _ _ ?_ ?_)))
    · rw [b.cont_shape.1]; exact hi
    · rw [b.cont_shape.2]; exact hn

/-- **C97** (small steps) Two assignments of a regular model that solve the equations up to the tolerances `tol₁` and `tol₂`, with the same
inputs and parameters: bounds for the differences of the states, the derivatives and the algebraic states. -/
theorem C97_inexact (hcs : IsCsFunction csFunction)
    (pre : SchemePre freshI casadiPoints csFunction dae t order method tdp_fun d xdot res tau F)
    (hs : Scheme.new fresh freshI casadiPoints csFunction dae t order method tdp_fun rep = .ok s)
    (L Lz G Gz θ : ℝ) (reg : RegularDae d xdot res L Lz G Gz)
    (T : ButcherTableau ℝ) (hT : butcherTableuForCollocationPoints tau = .ok T) (α β H : ℝ)
    (hα : ∀ j < s.M, ∑ k ∈ Finset.range s.M, |T.A.e [j, k]| ≤ α) (hβ : ∑ k ∈ Finset.range s.M, |T.b.e [k]| ≤ β)
    (ht : ∀ n < s.N, nd t n ≤ nd t (n + 1) ∧ nd t (n + 1) - nd t n ≤ H) (hθ : θ < 1) (hstep : L * (H * α) ≤ θ)
    (env₁ env₂ : Env ℝ) (tol₁ tol₂ ε : ℝ) (h₁ : ∀ v ∈ s.eq.vals env₁, |v| ≤ tol₁) (h₂ : ∀ v ∈ s.eq.vals env₂, |v| ≤ tol₂)
    (htol : 0 ≤ tol₁ ∧ 0 ≤ tol₂)
    (hu : ∀ n < s.N, ∀ i < d.nu, s.u.val env₁ i n = s.u.val env₂ i n)
    (hp : ∀ c < s.p.cols, ∀ i < d.np, s.p.val env₁ i c = s.p.val env₂ i c)
    (hε : 0 ≤ ε) (h0 : ∀ i < d.nx, |s.x.val env₁ i 0 - s.x.val env₂ i 0| ≤ ε) :
    let tol := tol₁ + tol₂
    let Λ := β * L / (1 - θ)
    let bound := fun n : ℕ => Real.exp (Λ * (nd t n - nd t 0)) * (ε + (nd t n - nd t 0) * (β * G / (1 - θ) * tol) + n * tol)
    (∀ n ≤ s.N, ∀ i < d.nx, |s.x.val env₁ i n - s.x.val env₂ i n| ≤ bound n) ∧
    ∀ n < s.N, ∀ j < s.M,
      (∀ i < d.nx, |s.Kd.val env₁ i (n * s.M + j) - s.Kd.val env₂ i (n * s.M + j)| ≤ (L * bound n + G * tol) / (1 - θ) ∧
        |s.X.val env₁ i (n * s.M + j) - s.X.val env₂ i (n * s.M + j)| ≤ (bound n + H * α * (G * tol)) / (1 - θ)) ∧
      ∀ k < d.nz, |s.Z.val env₁ k (n * s.M + j) - s.Z.val env₂ k (n * s.M + j)| ≤
        Lz * ((bound n + H * α * (G * tol)) / (1 - θ)) + Gz * tol := by
  intro tol Λ bound
  have b := pre.built hs
  have hpos := pre.pos
  have hN := b.N_eq
  have hM := b.M_eq
  have hnp : d.np = d.p.rows := by simp [DaeObj.np, MXExpr.numel, pre.p]
  have hpc : s.p.cols = if rep then (t.length - 1) * order else 1 := by rw [b.p]; rfl
  have h1θ : 0 < 1 - θ := by linarith
  obtain ⟨hL, hG⟩ := reg.nonneg
  have htol0 : 0 ≤ tol := add_nonneg htol.1 htol.2
  rw [hN, hM]
  rw [hM] at hα hβ
  rw [hN] at ht hu
  have hA : ∀ i j, T.A.e [i, j] = wA tau i j := by
    intro i j
    rw [butcher_ok] at hT; cases hT
    rfl
  have hB : ∀ k < order, T.b.e [k] = wb tau k := by
    intro k hk
    rw [butcher_ok] at hT; cases hT
    simp [NdArray.vec, nd, List.getD_eq_getElem?_getD, pre.len, hk, wb]
  simp only [hA] at hα
  rw [Finset.sum_congr rfl fun k hk => by rw [hB k (Finset.mem_range.mp hk)]] at hβ
  have hα0 : 0 ≤ α := (Finset.sum_nonneg fun _ _ => abs_nonneg _).trans (hα 0 hpos)
  have hβ0 : 0 ≤ β := (Finset.sum_nonneg fun _ _ => abs_nonneg _).trans hβ
  obtain ⟨r₁, c₁⟩ := Scheme.eq_tol pre b.toCore h₁
  obtain ⟨r₂, c₂⟩ := Scheme.eq_tol pre b.toCore h₂
  rw [pre.wf.nx] at h0 ⊢
  rw [pre.wf.nz]
  rw [pre.wf.nu] at hu
  rw [hnp] at hp
  simp only [b.x, b.Kd, b.Z, b.u, b.p, MXExpr.sym] at h0 hu hp ⊢
  -- one point
  have point : ∀ n j, n < t.length - 1 → j < order → ∀ δ, 0 ≤ δ →
      (∀ i < d.x.rows, |s.X.val env₁ i (n * order + j) - s.X.val env₂ i (n * order + j)| ≤ δ) →
      (∀ i < d.x.rows, |env₁ (fresh "K") i (n * order + j) - env₂ (fresh "K") i (n * order + j)| ≤ L * δ + G * tol) ∧
      ∀ k < d.z.rows, |env₁ (fresh "Z") k (n * order + j) - env₂ (fresh "Z") k (n * order + j)| ≤ Lz * δ + Gz * tol := by
    intro n j hn hj δ hδ0 hδ
    have hc := block_lt hn hj
    obtain ⟨e₁, a₁⟩ := exists_atPoint hcs pre b.toCore env₁ hc
    obtain ⟨e₂, a₂⟩ := exists_atPoint hcs pre b.toCore env₂ hc
    have v₁ := a₁.vals pre b.toCore
    have v₂ := a₂.vals pre b.toCore
    rw [div_block hj] at v₁ v₂
    obtain ⟨q1, q2⟩ := reg.regular e₁ e₂ (fun i hi => by rw [v₁.u i hi, v₂.u i hi, hu n hn i hi])
      (fun i hi => by
        rw [v₁.p i hi, v₂.p i hi]
        refine hp _ ?_ i hi
        cases rep
        · exact Nat.one_pos
        · exact hc) (by rw [v₁.t, v₂.t]) (fun i hi l hl => by rw [v₁.tdp i hi l hl, v₂.tdp i hi l hl]) δ tol hδ0 htol0
      (fun i hi => by rw [v₁.x i hi, v₂.x i hi]; exact hδ i hi) (fun i hi => by
        rw [← (a₁.out hcs pre b.toCore hc).1 i hi, ← (a₂.out hcs pre b.toCore hc).1 i hi]
        exact (abs_sub _ _).trans (add_le_add (r₁ _ hc i hi) (r₂ _ hc i hi)))
    refine ⟨fun i hi => ?_, fun k hk => ?_⟩
    · have := q1 i hi
      rwa [v₁.xdot i hi, v₂.xdot i hi] at this
    · have := q2 k hk
      rwa [v₁.z k hk, v₂.z k hk] at this
  -- one interval
  have interval : ∀ n < t.length - 1, ∀ a, 0 ≤ a → (∀ i < d.x.rows, |env₁ (fresh "x") i n - env₂ (fresh "x") i n| ≤ a) →
      ∀ j < order, ∀ i < d.x.rows, |env₁ (fresh "K") i (n * order + j) - env₂ (fresh "K") i (n * order + j)| ≤ (L * a + G * tol) / (1 - θ) ∧
        |s.X.val env₁ i (n * order + j) - s.X.val env₂ i (n * order + j)| ≤ (a + H * α * (G * tol)) / (1 - θ) := by
    intro n hn a ha hxa j hj i hi
    have := interval_inexact d.x.rows order (wA tau) (nd t (n + 1) - nd t n) H α L θ (G * tol) a
      ⟨sub_nonneg.mpr (ht n hn).1, (ht n hn).2⟩ hL (by positivity) ha hα0 hα hθ hstep (fun i => env₁ (fresh "x") i n)
      (fun i => env₂ (fresh "x") i n) (fun i l => env₁ (fresh "K") i (n * order + l)) (fun i l => env₂ (fresh "K") i (n * order + l)) hxa
      (fun j hj δ hδ0 hδ => (point n j hn hj δ hδ0 (fun i hi => by
        rw [b.X env₁ i n j hn hj, b.X env₂ i n j hn hj]
        exact hδ i hi)).1) j hj i hi
    rw [b.X env₁ i n j hn hj, b.X env₂ i n j hn hj]
    exact this
  have hbnd : ∀ n ≤ t.length - 1, ∀ i < d.x.rows, |env₁ (fresh "x") i n - env₂ (fresh "x") i n| ≤ bound n := by
    refine gronwall_inexact (nd t) (t.length - 1) (fun n hn => (ht n hn).1) Λ (β * G / (1 - θ) * tol) tol (by positivity) (by positivity)
      htol0 ε (fun n a => ∀ i < d.x.rows, |env₁ (fresh "x") i n - env₂ (fresh "x") i n| ≤ a) h0 ?_
      (fun n a a' haa h i hi => (h i hi).trans haa) hε
    intro n hn a ha hxa i hi
    have hk := interval n hn a ha hxa
    have e₁ := c₁ n hn i hi
    have e₂ := c₂ n hn i hi
    rw [b.cont _ i n hn] at e₁ e₂
    set σ₁ := env₁ (fresh "x") i n + (nd t (n + 1) - nd t n) * ∑ l ∈ Finset.range order, env₁ (fresh "K") i (n * order + l) * wb tau l
    set σ₂ := env₂ (fresh "x") i n + (nd t (n + 1) - nd t n) * ∑ l ∈ Finset.range order, env₂ (fresh "K") i (n * order + l) * wb tau l
    have hsum : |∑ l ∈ Finset.range order, (env₁ (fresh "K") i (n * order + l) - env₂ (fresh "K") i (n * order + l)) * wb tau l| ≤
        (L * a + G * tol) / (1 - θ) * β := by
      refine (Finset.abs_sum_le_sum_abs _ _).trans ?_
      refine le_trans ?_ (mul_le_mul_of_nonneg_left hβ (by positivity))
      rw [Finset.mul_sum]
      refine Finset.sum_le_sum fun l hl => ?_
      rw [abs_mul]
      exact mul_le_mul_of_nonneg_right (hk l (Finset.mem_range.mp hl) i hi).1 (abs_nonneg _)
    have hh := sub_nonneg.mpr (ht n hn).1
    have hσ : |σ₁ - σ₂| ≤ a + (nd t (n + 1) - nd t n) * ((L * a + G * tol) / (1 - θ) * β) := by
      have : σ₁ - σ₂ = (env₁ (fresh "x") i n - env₂ (fresh "x") i n) + (nd t (n + 1) - nd t n) *
          ∑ l ∈ Finset.range order, (env₁ (fresh "K") i (n * order + l) - env₂ (fresh "K") i (n * order + l)) * wb tau l := by
        simp only [σ₁, σ₂, sub_mul, Finset.sum_sub_distrib]
        ring
      rw [this]
      refine (abs_add_le _ _).trans (add_le_add (hxa i hi) ?_)
      rw [abs_mul, abs_of_nonneg hh]
      exact mul_le_mul_of_nonneg_left hsum hh
    have h3 : env₁ (fresh "x") i (n + 1) - env₂ (fresh "x") i (n + 1) =
        (σ₁ - σ₂) - (σ₁ - env₁ (fresh "x") i (n + 1)) + (σ₂ - env₂ (fresh "x") i (n + 1)) := by ring
    rw [h3]
    have h4 := abs_add_le ((σ₁ - σ₂) - (σ₁ - env₁ (fresh "x") i (n + 1))) (σ₂ - env₂ (fresh "x") i (n + 1))
    have h5 := abs_sub (σ₁ - σ₂) (σ₁ - env₁ (fresh "x") i (n + 1))
    have h6 : (nd t (n + 1) - nd t n) * ((L * a + G * tol) / (1 - θ) * β) =
        (nd t (n + 1) - nd t n) * (Λ * a + β * G / (1 - θ) * tol) := by
      simp only [Λ]
      field_simp
    have h7 : tol = tol₁ + tol₂ := rfl
    linarith
  have hb0 : ∀ n ≤ t.length - 1, 0 ≤ bound n := by
    intro n hn
    have : 0 ≤ nd t n - nd t 0 := by
      clear_value bound
      induction n with
      | zero => simp
      | succ n ih => have := ih (by omega); have := (ht n (by omega)).1; linarith
    have : 0 ≤ β * G / (1 - θ) * tol := by positivity
    positivity
  refine ⟨hbnd, fun n hn j hj => ?_⟩
  have hi := interval n hn (bound n) (hb0 n hn.le) (hbnd n hn.le) j hj
  refine ⟨hi, fun k hk => ?_⟩
  refine (point n j hn hj ((bound n + H * α * (G * tol)) / (1 - θ)) ?_ (fun i hi' => (hi i hi').2)).2 k hk
  have := hb0 n hn.le
  have hH : 0 ≤ H := by
    have := ht n hn
    linarith [this.1, this.2]
  positivity

/-- **C97** (integrator) If the root finder solves the equations up to the tolerance `tol`, the states that the integrator of a regular model
returns differ from the exact solution of the model at most by the bounds of C88 plus a constant times `(t-t0+n+1)*tol`. -/
theorem C97_integrator (hcs : IsCsFunction csFunction)
    (pre : SchemePre freshI casadiPoints csFunction dae t order method tdp_fun d xdot res tau F)
    (hfr : DistinctSyms fresh) (hpq : dae.np = 0 ∨ dae.nq = 0) (L Lz G Gz θ : ℝ) (reg : RegularDae d xdot res L Lz G Gz)
    (hsol : Solvable d xdot res) (hd : tau.Nodup) (h01 : ∀ k < tau.length, nd tau k ∈ Icc (0 : ℝ) 1)
    (T : ButcherTableau ℝ) (hT : butcherTableuForCollocationPoints tau = .ok T) (α β H : ℝ)
    (hα : ∀ j < order, ∑ k ∈ Finset.range order, |T.A.e [j, k]| ≤ α) (hβ : ∑ k ∈ Finset.range order, |T.b.e [k]| ≤ β)
    (ht : ∀ n < t.length - 1, nd t n ≤ nd t (n + 1) ∧ nd t (n + 1) - nd t n ≤ H) (hθ : θ < 1) (hstep : L * (H * α) ≤ θ)
    (rootfinder : (List ℝ → List ℝ) → List ℝ → Except PyErr (List ℝ)) (tol : ℝ) (htol : 0 ≤ tol)
    (hrf : ∀ f w0 sol, rootfinder f w0 = .ok sol → ∀ v ∈ f sol, |v| ≤ tol) :
    ∃ g, Integrator.new fresh freshI casadiPoints csFunction dae t order method tdp_fun = .ok g ∧
      ∀ x0 z0 u p out, g.call rootfinder x0 z0 u p = .ok out →
      ∀ (y : ℕ → ℝ → ℝ) (f ζ : ℕ → ℕ → ℝ → ℝ), ExactDae d xdot res tdp_fun t u.e (fun i => p.e i 0) y f ζ →
      ∀ B, 0 ≤ B → (∀ n < t.length - 1, ∀ i < d.nx, ContDiffOn ℝ order (f n i) (Icc (nd t n) (nd t (n + 1)))) →
      (∀ n < t.length - 1, ∀ i < d.nx, ∀ τ ∈ Icc (nd t n) (nd t (n + 1)),
        |iteratedDerivWithin order (f n i) (Icc (nd t n) (nd t (n + 1))) τ| ≤ B) →
      ∀ ε, 0 ≤ ε → (∀ i < d.nx, |x0.e i 0 - y i (nd t 0)| ≤ ε) →
      let Λ := β * L / (1 - θ)
      let D := B * H ^ order / ((order - 1).factorial : ℝ)
      let bound := fun n : ℕ => Real.exp (Λ * (nd t n - nd t 0)) * (ε + (nd t n - nd t 0) * ((1 + β + Λ * H * (1 + α)) * D) +
        (1 + (nd t n - nd t 0) * (β * G / (1 - θ)) + n) * tol)
      (∀ n < t.length, ∀ i < d.nx, |out.x.e i n - y i (nd t n)| ≤ bound n) ∧
      ∀ n < t.length - 1, ∀ i < d.nx, |out.xf.e i n - y i (nd t (n + 1))| ≤ bound (n + 1) := by
  obtain ⟨s, x1, hs, -, hx1v, hnew⟩ := integrator_new fresh freshI casadiPoints csFunction dae t order method tdp_fun d xdot res tau F
    pre
  rw [if_neg (by omega)] at hnew
  have b := pre.built hs
  obtain ⟨px, -⟩ := makeImplicit_parts pre.impl
  have hnx : dae.nx = d.nx := by simp [DaeObj.nx, px]
  have hf : [fresh "x", fresh "K", fresh "Z", fresh "u", fresh "P"].Nodup := by
    simp [hfr.xK, hfr.xZ, hfr.xu, hfr.xP, hfr.KZ, hfr.Ku, hfr.KP, hfr.Zu, hfr.ZP, hfr.uP]
  have htwo := pre.two
  have ix := reg.indexOne pre.wf.res_cols
  have hα0 : 0 ≤ α := (Finset.sum_nonneg fun _ _ => abs_nonneg _).trans (hα 0 pre.pos)
  refine ⟨_, hnew, ?_⟩
  intro x0 z0 u p out hout y f ζ hex B hB0 hsm hB ε hε h0 Λ D bound
  unfold Integrator.call at hout
  simp only [bind, Except.bind] at hout
  split at hout
  · cases hout
  rename_i sol hsol'
  have hroot := hrf _ _ _ hsol'
  have hout := Except.ok.inj hout
  set env := Integrator.envOf fresh s sol u p with henv
  have hu : s.u.val env = u.e := by
    rw [b.u]
    show Integrator.envOf fresh s sol u p (fresh "u") = _
    unfold Integrator.envOf
    rw [if_neg hfr.xu.symm, if_neg hfr.Ku.symm, if_neg hfr.Zu.symm, if_pos rfl]
  have hp : s.p.val env = p.e := by
    rw [b.p]
    show Integrator.envOf fresh s sol u p (fresh "P") = _
    unfold Integrator.envOf
    rw [if_neg hfr.xP.symm, if_neg hfr.KP.symm, if_neg hfr.ZP.symm, if_neg hfr.uP.symm, if_pos rfl]
  have hinit : ∀ i < d.nx, |s.x.val env i 0 - x0.e i 0| ≤ tol := by
    intro i hi
    have := hroot (x1.val env i 0 - x0.e i 0)
      (List.mem_append_right _ (List.mem_map.mpr ⟨i, List.mem_range.mpr (by omega), rfl⟩))
    rwa [hx1v] at this
  obtain ⟨env', heq', hx', hu', hp'⟩ := C88_exists fresh freshI casadiPoints csFunction dae t order method tdp_fun d xdot res tau F false s
    hcs pre hs hf L Lz θ ix hsol hθ T hT (by
      intro n hn j hj
      rw [b.N_eq] at hn
      rw [b.M_eq] at hj ⊢
      refine le_trans (mul_le_mul_of_nonneg_left ?_ ix.nonneg) hstep
      rw [abs_of_nonneg (sub_nonneg.mpr (ht n hn).1)]
      exact mul_le_mul (ht n hn).2 (hα j hj) (Finset.sum_nonneg fun _ _ => abs_nonneg _)
        ((sub_nonneg.mpr (ht n hn).1).trans (ht n hn).2)) env (fun h => by cases h) (fun i => x0.e i 0)
  have hu'' : s.u.val env' = u.e := by
    rw [← hu]
    funext i n
    exact hu' i n
  have hp'' : s.p.val env' = p.e := by
    rw [← hp]
    funext i n
    exact hp' i n
  have k1 := (C97_inexact fresh freshI casadiPoints csFunction dae t order method tdp_fun d xdot res tau F false s hcs pre hs L Lz G Gz θ
    reg T hT α β H (by rw [b.M_eq]; exact hα) (by rw [b.M_eq]; exact hβ) (by rw [b.N_eq]; exact ht) hθ hstep env env' tol 0 tol
    (fun v hv => hroot v (List.mem_append_left _ hv)) (fun v hv => by rw [heq' v hv, abs_zero]) ⟨htol, le_rfl⟩
    (fun n _ i _ => (hu' i n).symm) (fun n _ i _ => (hp' i n).symm) htol (fun i hi => by rw [hx' i]; exact hinit i hi)).1
  have k2 := (C88_convergence fresh freshI casadiPoints csFunction dae t order method tdp_fun d xdot res tau F false s hcs pre hs hf
    L Lz θ ix hd h01 T hT α β H (by rw [b.M_eq]; exact hα) (by rw [b.M_eq]; exact hβ) (by rw [b.N_eq]; exact ht) hθ hstep env'
    heq' y f ζ (by rw [hu'', hp'']; exact hex) B ε (by rw [b.N_eq, b.M_eq]; exact hsm)
    (by rw [b.N_eq, b.M_eq]; exact hB) hB0 hε (fun i hi => by rw [hx' i]; exact h0 i hi)).1
  rw [b.N_eq] at k1 k2
  rw [b.M_eq] at k2
  have key : ∀ n ≤ t.length - 1, ∀ i < d.nx, |s.x.val env i n - y i (nd t n)| ≤ bound n := by
    intro n hn i hi
    have h1 := k1 n hn i hi
    have h2 := k2 n hn i hi
    have h3 : s.x.val env i n - y i (nd t n) = (s.x.val env i n - s.x.val env' i n) + (s.x.val env' i n - y i (nd t n)) := by ring
    rw [h3]
    refine (abs_add_le _ _).trans ((add_le_add h1 h2).trans (le_of_eq ?_))
    simp only [bound, Λ, D, add_zero]
    ring
  rw [← hout]
  exact ⟨fun n hn i hi => key n (by omega) i hi, fun n hn i hi => key (n + 1) (by omega) i hi⟩

end

/-- The model is an ordinary differential equation with the residual `xdot - ode`, and for equal inputs, parameters and times its right-hand
side is contractive with respect to the form: the distance of two solutions does not grow. -/
structure ContractiveOde (d : DaeObj ℝ) (xdot res ode : MXExpr ℝ) (S : ℕ → ℕ → ℝ) : Prop where
  rows : d.nx ≤ res.rows
  explicit : ∀ e, ∀ i < d.nx, res.val e i 0 = xdot.val e i 0 - ode.val e i 0
  contractive : ∀ e e', SameInputs d e e' → ∑ i ∈ Finset.range d.nx, ∑ j ∈ Finset.range d.nx, S i j *
      ((ode.val e i 0 - ode.val e' i 0) * (d.x.val e j 0 - d.x.val e' j 0) +
        (d.x.val e i 0 - d.x.val e' i 0) * (ode.val e j 0 - ode.val e' j 0)) ≤ 0

/-- **C97** (contractive models) Gauss or Radau nodes and a positive definite form determine a constant such that for every ordinary
differential equation that is contractive with respect to the form, and every increasing grid, the states of two assignments that solve the
equations up to the tolerances `tol₁` and `tol₂` differ at most by the initial difference plus the constant times
`(t-t0+n)*(tol₁+tol₂)`, and those at the collocation points at most by the constant times the sum of both: steps of any length, no exponential
growth, no Lipschitz constant. -/
theorem C97_contractive (tau : List ℝ) (hnode : IsGauss tau ∨ IsRadau tau) (S : ℕ → ℕ → ℝ) (m : ℕ) (hpd : PosDefForm S m) :
    ∃ C ≥ 0, ∀ (fresh freshI : String → ℕ) (casadiPoints : ℕ → String → Except PyErr (List ℝ))
      (csFunction : List (MXExpr ℝ) → List (MXExpr ℝ) → Except PyErr (CsFn ℝ))
      (dae : DaeObj ℝ) (t : List ℝ) (order : ℕ) (method : String) (tdp_fun : Option (ℝ → Mat ℝ))
      (d : DaeObj ℝ) (xdot res ode : MXExpr ℝ) (F : CsFn ℝ) (rep : Bool) (s : Scheme ℝ), IsCsFunction csFunction →
      SchemePre freshI casadiPoints csFunction dae t order method tdp_fun d xdot res tau F →
      Scheme.new fresh freshI casadiPoints csFunction dae t order method tdp_fun rep = .ok s →
      d.nx = m → ContractiveOde d xdot res ode S → (∀ n < s.N, nd t n < nd t (n + 1)) →
      ∀ (env₁ env₂ : Env ℝ) (tol₁ tol₂ : ℝ), 0 ≤ tol₁ → 0 ≤ tol₂ →
      (∀ v ∈ s.eq.vals env₁, |v| ≤ tol₁) → (∀ v ∈ s.eq.vals env₂, |v| ≤ tol₂) →
      (∀ n < s.N, ∀ i < d.nu, s.u.val env₁ i n = s.u.val env₂ i n) →
      (∀ c < s.p.cols, ∀ i < d.np, s.p.val env₁ i c = s.p.val env₂ i c) →
      (∀ n ≤ s.N, qnorm S m (fun i => s.x.val env₁ i n - s.x.val env₂ i n) ≤
        qnorm S m (fun i => s.x.val env₁ i 0 - s.x.val env₂ i 0) + C * ((nd t n - nd t 0 + n) * (tol₁ + tol₂))) ∧
      ∀ n < s.N, ∀ j < s.M, qnorm S m (fun i => s.X.val env₁ i (n * s.M + j) - s.X.val env₂ i (n * s.M + j)) ≤
        C * (qnorm S m (fun i => s.x.val env₁ i 0 - s.x.val env₂ i 0) + (nd t (n + 1) - nd t 0 + n) * (tol₁ + tol₂)) := by
  rcases Nat.eq_zero_or_pos tau.length with h0 | hpos
  · refine ⟨0, le_rfl, fun fresh freshI casadiPoints csFunction dae t order method tdp_fun d xdot res ode F rep s _ pre => ?_⟩
    have h1 := pre.pos
    rw [← pre.len, h0] at h1
    exact absurd h1 (lt_irrefl _)
  obtain ⟨C, hC, hst⟩ := stage_stable tau hnode hpos S m hpd
  obtain ⟨c, hc, hmax⟩ := qnorm_le_max S m
  refine ⟨(C + 1) * (C * c + c) + C, by positivity, fun fresh freshI casadiPoints csFunction dae t order method tdp_fun d xdot res ode F rep s hcs pre hs hm
    con ht env₁ env₂ tol₁ tol₂ htol₁ htol₂ h₁ h₂ hu hp => ?_⟩
  have b := pre.built hs
  have hpc : s.p.cols = if rep then (t.length - 1) * order else 1 := by rw [b.p]; rfl
  have hlen := pre.len
  subst hlen
  have hN := b.N_eq
  have hM := b.M_eq
  rw [hN] at ht hu ⊢
  rw [hM]
  obtain ⟨r₁, c₁⟩ := Scheme.eq_tol pre b.toCore h₁
  obtain ⟨r₂, c₂⟩ := Scheme.eq_tol pre b.toCore h₂
  have hrow : ∀ i < m, i < d.x.rows := fun i hi => by rw [← pre.wf.nx, hm]; exact hi
  have htol : 0 ≤ tol₁ + tol₂ := add_nonneg htol₁ htol₂
  have hx : ∀ env i n, s.x.val env i n = env (fresh "x") i n := fun env i n => by rw [b.x]; rfl
  simp only [hx]
  have step : ∀ n < t.length - 1, qnorm S m (fun i => env₁ (fresh "x") i (n + 1) - env₂ (fresh "x") i (n + 1)) ≤
      qnorm S m (fun i => env₁ (fresh "x") i n - env₂ (fresh "x") i n) + (C * c + c) * ((nd t (n + 1) - nd t n + 1) * (tol₁ + tol₂)) ∧
      ∀ j < tau.length, qnorm S m (fun i => s.X.val env₁ i (n * tau.length + j) - s.X.val env₂ i (n * tau.length + j)) ≤
        C * (qnorm S m (fun i => env₁ (fresh "x") i n - env₂ (fresh "x") i n) + (nd t (n + 1) - nd t n) * (c * (tol₁ + tol₂))) := by
    intro n hn
    set h := nd t (n + 1) - nd t n with hh
    have hh0 : 0 < h := sub_pos.mpr (ht n hn)
    let k : ℕ → ℕ → ℝ := fun i l => h * (env₁ (fresh "K") i (n * tau.length + l) - env₂ (fresh "K") i (n * tau.length + l))
    have hE : ∀ j < tau.length, ∀ i, (env₁ (fresh "x") i n - env₂ (fresh "x") i n) + stageSum tau k i j =
        s.X.val env₁ i (n * tau.length + j) - s.X.val env₂ i (n * tau.length + j) := by
      intro j hj i
      rw [b.X env₁ i n j hn hj, b.X env₂ i n j hn hj, ← hh]
      simp only [stageSum, k, mul_assoc, ← Finset.mul_sum, sub_mul, Finset.sum_sub_distrib]
      ring
    obtain ⟨h1, hX⟩ := hst (fun i => env₁ (fresh "x") i n - env₂ (fresh "x") i n) k (h * (c * (tol₁ + tol₂))) (by positivity) (by
      intro j hj
      rw [sform_congr (fun _ _ => rfl) fun i _ => hE j hj i, qnorm_congr fun i _ => hE j hj i]
      have hcc : n * tau.length + j < (t.length - 1) * tau.length := block_lt hn hj
      obtain ⟨e₁, a₁⟩ := exists_atPoint hcs pre b.toCore env₁ hcc
      obtain ⟨e₂, a₂⟩ := exists_atPoint hcs pre b.toCore env₂ hcc
      have v₁ := a₁.vals pre b.toCore
      have v₂ := a₂.vals pre b.toCore
      have hsame := sameInputs_atPoint fresh freshI casadiPoints csFunction dae t tau.length method tdp_fun d xdot res tau F rep s pre b _
        env₁ env₂ e₁ e₂ a₁ a₂ (by rw [div_block hj]; exact hu n hn) (hp _ (by
          rw [hpc]
          cases rep
          · exact Nat.one_pos
          · exact hcc))
      have h2 := con.contractive e₁ e₂ hsame
      rw [hm] at h2
      set E : ℕ → ℝ := fun i => s.X.val env₁ i (n * tau.length + j) - s.X.val env₂ i (n * tau.length + j) with hEdef
      have h3 : sform S m (fun i => ode.val e₁ i 0 - ode.val e₂ i 0) E ≤ 0 := by
        refine le_trans (le_of_eq ?_) h2
        refine Finset.sum_congr rfl fun i hi => Finset.sum_congr rfl fun l hl => ?_
        have hi := hrow i (Finset.mem_range.mp hi)
        have hl := hrow l (Finset.mem_range.mp hl)
        rw [v₁.x i hi, v₁.x l hl, v₂.x i hi, v₂.x l hl]
      have hk : ∀ i < m, k i j = h * (ode.val e₁ i 0 - ode.val e₂ i 0) + h * (res.val e₁ i 0 - res.val e₂ i 0) := by
        intro i hi
        have g1 := con.explicit e₁ i (by rw [hm]; exact hi)
        have g2 := con.explicit e₂ i (by rw [hm]; exact hi)
        rw [v₁.xdot i (hrow i hi)] at g1
        rw [v₂.xdot i (hrow i hi)] at g2
        rw [g1, g2]
        simp only [k]
        ring
      rw [sform_congr hk fun _ _ => rfl]
      have h4 : sform S m (fun i => h * (ode.val e₁ i 0 - ode.val e₂ i 0) + h * (res.val e₁ i 0 - res.val e₂ i 0)) E =
          h * sform S m (fun i => ode.val e₁ i 0 - ode.val e₂ i 0) E + h * sform S m (fun i => res.val e₁ i 0 - res.val e₂ i 0) E := by
        simp only [sform, Finset.mul_sum, ← Finset.sum_add_distrib]
        refine Finset.sum_congr rfl fun i _ => Finset.sum_congr rfl fun l _ => ?_
        ring
      rw [h4]
      have h5 := hpd.cauchy (fun i => res.val e₁ i 0 - res.val e₂ i 0) E
      have h6 := hmax (fun i => res.val e₁ i 0 - res.val e₂ i 0) (tol₁ + tol₂) htol (fun i hi => by
        have hi' : i < res.rows := lt_of_lt_of_le (by rw [hm]; exact hi) con.rows
        rw [← (a₁.out hcs pre b.toCore hcc).1 i hi', ← (a₂.out hcs pre b.toCore hcc).1 i hi']
        exact (abs_sub _ _).trans (add_le_add (r₁ _ hcc i hi') (r₂ _ hcc i hi')))
      have h7 : 0 ≤ qnorm S m E := qnorm_nonneg _
      have h8 := mul_le_mul_of_nonneg_right h6 h7
      have h9 : sform S m (fun i => res.val e₁ i 0 - res.val e₂ i 0) E ≤ 2 * (c * (tol₁ + tol₂) * qnorm S m E) := by linarith
      have h10 := mul_le_mul_of_nonneg_left h9 hh0.le
      have h11 := mul_nonpos_of_nonneg_of_nonpos hh0.le h3
      linarith)
    have h2 : ∀ i < m, |(env₁ (fresh "x") i (n + 1) - env₂ (fresh "x") i (n + 1)) -
        ((env₁ (fresh "x") i n - env₂ (fresh "x") i n) + ∑ l ∈ Finset.range tau.length, k i l * wb tau l)| ≤ tol₁ + tol₂ := by
      intro i hi
      have e₁ := c₁ n hn i (hrow i hi)
      have e₂ := c₂ n hn i (hrow i hi)
      rw [b.cont _ i n hn, ← hh] at e₁ e₂
      have h3 : ∑ l ∈ Finset.range tau.length, k i l * wb tau l =
          h * ∑ l ∈ Finset.range tau.length, env₁ (fresh "K") i (n * tau.length + l) * wb tau l -
          h * ∑ l ∈ Finset.range tau.length, env₂ (fresh "K") i (n * tau.length + l) * wb tau l := by
        simp only [k, mul_assoc, ← Finset.mul_sum, sub_mul, Finset.sum_sub_distrib]
        ring
      rw [h3]
      rw [abs_le] at e₁ e₂ ⊢
      constructor <;> linarith [e₁.1, e₁.2, e₂.1, e₂.2]
    have h3 := hmax _ _ htol h2
    have h4 : qnorm S m (fun i => env₁ (fresh "x") i (n + 1) - env₂ (fresh "x") i (n + 1)) ≤
        qnorm S m (fun i => (env₁ (fresh "x") i n - env₂ (fresh "x") i n) + ∑ l ∈ Finset.range tau.length, k i l * wb tau l) +
        qnorm S m (fun i => (env₁ (fresh "x") i (n + 1) - env₂ (fresh "x") i (n + 1)) -
        ((env₁ (fresh "x") i n - env₂ (fresh "x") i n) + ∑ l ∈ Finset.range tau.length, k i l * wb tau l)) := by
      refine le_trans (le_of_eq (qnorm_congr fun i _ => ?_)) (hpd.triangle _ _)
      ring
    have h5 : 0 ≤ C * c * (tol₁ + tol₂) := by positivity
    have h6 : 0 ≤ c * h * (tol₁ + tol₂) := by positivity
    refine ⟨by linarith, fun j hj => ?_⟩
    rw [← qnorm_congr fun i _ => hE j hj i]
    exact hX j hj
  have hmono : ∀ n ≤ t.length - 1, 0 ≤ nd t n - nd t 0 := by
    intro n
    induction n with
    | zero => intro _; simp
    | succ n ih =>
      intro hn
      have := ht n hn
      have := ih (by omega)
      linarith
  have main : ∀ n ≤ t.length - 1, qnorm S m (fun i => env₁ (fresh "x") i n - env₂ (fresh "x") i n) ≤
      qnorm S m (fun i => env₁ (fresh "x") i 0 - env₂ (fresh "x") i 0) + (C * c + c) * ((nd t n - nd t 0 + n) * (tol₁ + tol₂)) := by
    intro n
    induction n with
    | zero => intro _; simp
    | succ n ih =>
      intro hn
      refine (step n hn).1.trans ((add_le_add (ih (by omega)) le_rfl).trans (le_of_eq ?_))
      push_cast
      ring
  have hCc : 0 ≤ C * c + c := by positivity
  refine ⟨fun n hn => (main n hn).trans ?_, fun n hn j hj => ((step n hn).2 j hj).trans ?_⟩
  · have h1 := hmono n hn
    have h2 : 0 ≤ (nd t n - nd t 0 + n) * (tol₁ + tol₂) := by positivity
    have h3 : C * c + c ≤ (C + 1) * (C * c + c) + C := by nlinarith
    exact add_le_add le_rfl (mul_le_mul_of_nonneg_right h3 h2)
  · have h1 := hmono n hn.le
    have h2 : 0 ≤ (nd t n - nd t 0 + n) * (tol₁ + tol₂) := by positivity
    have h3 : 0 ≤ (nd t (n + 1) - nd t n) * (tol₁ + tol₂) := mul_nonneg (sub_nonneg.mpr (ht n hn).le) htol
    have h4 : 0 ≤ qnorm S m (fun i => env₁ (fresh "x") i 0 - env₂ (fresh "x") i 0) := qnorm_nonneg _
    have h5 := mul_le_mul_of_nonneg_left (add_le_add (main n hn.le) (le_refl ((nd t (n + 1) - nd t n) * (c * (tol₁ + tol₂))))) hC
    refine h5.trans ?_
    set q := qnorm S m (fun i => env₁ (fresh "x") i 0 - env₂ (fresh "x") i 0)
    set A := (nd t n - nd t 0 + n) * (tol₁ + tol₂) with hA
    set D := (nd t (n + 1) - nd t n) * (tol₁ + tol₂) with hD
    have e1 : (nd t (n + 1) - nd t 0 + n) * (tol₁ + tol₂) = A + D := by rw [hA, hD]; ring
    have e2 : (nd t (n + 1) - nd t n) * (c * (tol₁ + tol₂)) = c * D := by rw [hD]; ring
    rw [e1, e2]
    have p1 : 0 ≤ (C + 1) * (C * c + c) * q := by positivity
    have p2 : 0 ≤ C * A := by positivity
    have p3 : 0 ≤ (C * c + c) * A := by positivity
    have p4 : 0 ≤ C * (C * c) * D := by positivity
    have p5 : 0 ≤ (C * c + c + C) * D := by positivity
    nlinarith

/-! ## Non-vacuity -/

theorem stiff_contractiveOde (l : ℝ) (hl : 0 ≤ l) (freshI : String → ℕ) :
    ContractiveOde (stiffD l freshI) (.sym (freshI "xdot") 1) (stiffRes l freshI)
      ⟨1, 1, false, fun env _ _ => Real.cos (env 4 0 0) - l * (env 0 0 0 - Real.sin (env 4 0 0))⟩ (fun _ _ => 1) := by
  refine ⟨le_rfl, fun e i hi => ?_, fun e e' h => ?_⟩
  · obtain rfl : i = 0 := by change i < 1 at hi; omega
    simp [stiffRes, MXExpr.sym]
  · have ht : e 4 0 0 = e' 4 0 0 := h.t
    show ∑ i ∈ Finset.range 1, ∑ j ∈ Finset.range 1, _ ≤ _
    simp only [Finset.sum_range_one, one_mul, stiffD, MXExpr.sym]
    rw [ht]
    nlinarith [mul_nonneg hl (sq_nonneg (e 0 0 0 - e' 0 0 0))]

/-- `x' = cos(t) - λ*(x - sin(t))` for all `λ >= 0` with one constant. -/
example (tau : List ℝ) (hnode : IsGauss tau ∨ IsRadau tau) (hpos : 0 < tau.length) (freshI : String → ℕ) (hI : 7 ≤ freshI "xdot") :
    ∃ C ≥ 0, ∀ (l : ℝ) (t : List ℝ), 0 ≤ l → 2 ≤ t.length → (∀ n < t.length - 1, nd t n < nd t (n + 1)) → ∃ s,
      Scheme.new exFresh freshI (fun _ _ => .ok tau) idealCsFunction (stiffO l) t tau.length "legendre" none = .ok s ∧
      ∀ env env' tol, 0 ≤ tol → (∀ v ∈ s.eq.vals env, |v| ≤ tol) → (∀ v ∈ s.eq.vals env', v = 0) → s.x.val env 0 0 = s.x.val env' 0 0 →
        ∀ n < t.length, |s.x.val env 0 n - s.x.val env' 0 n| ≤ C * ((nd t n - nd t 0 + n) * tol) := by
  have hn1 : ∀ v : ℕ → ℝ, qnorm (fun _ _ => 1) 1 v = |v 0| := fun v => by
    show √(∑ i ∈ Finset.range 1, ∑ j ∈ Finset.range 1, _) = _
    simp only [Finset.sum_range_one, one_mul]
    exact Real.sqrt_mul_self_eq_abs _
  have hq : ∀ v : ℕ → ℝ, (∃ i < 1, v i ≠ 0) → 0 < qform (fun _ _ => 1) 1 v := by
    rintro v ⟨i, hi, hv⟩
    obtain rfl : i = 0 := by omega
    show 0 < ∑ i ∈ Finset.range 1, ∑ j ∈ Finset.range 1, _
    simp only [Finset.sum_range_one, one_mul]
    exact mul_self_pos.mpr hv
  obtain ⟨C, hC, h97⟩ := C97_contractive tau hnode (fun _ _ => 1) 1 hq
  refine ⟨C, hC, fun l t hl two ht => ?_⟩
  obtain ⟨F, pre⟩ := stiff_pre l freshI hI t tau two hpos
  obtain ⟨s, hs⟩ := C26_constructed exFresh freshI _ _ _ _ _ _ _ _ _ _ _ _ false pre
  have b := pre.built hs
  have hN : s.N = t.length - 1 := b.N_eq
  refine ⟨s, hs, fun env env' tol htol h h' h0 n hn => ?_⟩
  have key := (h97 exFresh freshI _ _ _ _ _ _ _ _ _ _ _ _ false s idealCsFunction_spec pre hs rfl (stiff_contractiveOde l hl freshI)
    (by rw [hN]; exact ht) env env' tol 0 htol le_rfl h (fun v hv => by rw [h' v hv, abs_zero]) (fun n _ i hi => absurd hi (Nat.not_lt_zero _))
    (fun c _ i hi => absurd hi (Nat.not_lt_zero _))).1 n (by omega)
  rw [hn1, hn1, h0, sub_self, abs_zero, zero_add, add_zero] at key
  exact key

/-- `x' = -z`, `0 = z - x` is regular. -/
theorem loop_regular (freshI : String → ℕ) :
    RegularDae (loopD freshI) (.sym (freshI "xdot") 1) (loopRes freshI) 1 1 2 1 := by
  refine ⟨by norm_num, fun e e' _ _ _ _ δ ρ _ _ hδ hρ => ?_⟩
  have h1 : |e 0 0 0 - e' 0 0 0| ≤ δ := hδ 0 Nat.one_pos
  have h2 := hρ 0 (by change 0 < 2; omega)
  have h3 := hρ 1 (by change 1 < 2; omega)
  simp only [loopRes, Nat.zero_lt_one, if_true, lt_irrefl, if_false] at h2 h3
  rw [abs_le] at h1 h2 h3
  constructor
  · intro i hi
    obtain rfl : i = 0 := by change i < 1 at hi; omega
    show |e (freshI "xdot") 0 0 - e' (freshI "xdot") 0 0| ≤ _
    rw [abs_le]
    constructor <;> linarith [h1.1, h1.2, h2.1, h2.2, h3.1, h3.2]
  · intro k hk
    obtain rfl : k = 0 := by change k < 1 at hk; omega
    show |e 1 0 0 - e' 1 0 0| ≤ _
    rw [abs_le]
    constructor <;> linarith [h1.1, h1.2, h3.1, h3.2]

/-- Midpoint rule for `x' = -z`, `0 = z - x` with steps of at most `H <= 1`, with equations that are solved up to `tol`: the states and
the algebraic states differ from those of the exact solution of the equations at most by `exp(2*t)*(4*t + n)*tol`, up to factors. -/
example (freshI : String → ℕ) (hI : 7 ≤ freshI "xdot") (t : List ℝ) (two : 2 ≤ t.length) (H : ℝ) (hH : H ≤ 1) (h0 : nd t 0 = 0)
    (ht : ∀ n < t.length - 1, nd t n ≤ nd t (n + 1) ∧ nd t (n + 1) - nd t n ≤ H) : ∃ s,
    Scheme.new exFresh freshI (fun _ _ => .ok [1 / 2]) idealCsFunction loopO t 1 "legendre" none = .ok s ∧ s.N = t.length - 1 ∧
    ∀ env env' tol, 0 ≤ tol → (∀ v ∈ s.eq.vals env, |v| ≤ tol) → (∀ v ∈ s.eq.vals env', v = 0) → s.x.val env 0 0 = s.x.val env' 0 0 →
      ∀ n ≤ s.N, |s.x.val env 0 n - s.x.val env' 0 n| ≤ Real.exp (2 * nd t n) * (nd t n * (4 * tol) + n * tol) := by
  obtain ⟨F, pre⟩ := loop_pre freshI hI t [1 / 2] two (by simp)
  obtain ⟨s, hs⟩ := C26_constructed exFresh freshI _ _ _ _ _ _ _ _ _ _ _ _ false pre
  have b := pre.built hs
  have hN : s.N = t.length - 1 := b.N_eq
  have hM : s.M = 1 := b.M_eq
  obtain ⟨T, hT, hA, hB, -⟩ := C09_butcher_consistent ([1 / 2] : List ℝ) (by simp) (by simp)
  obtain ⟨T', hT', -, -, -, hc, -⟩ := C08_butcher_exact ([1 / 2] : List ℝ) (by simp)
  rw [hT] at hT'
  cases hT'
  have hA0 : T.A.e [0, 0] = 1 / 2 := by
    have := hA 0 (by simp)
    rw [hc 0 (by simp)] at this
    simpa using this
  have hB0 : T.b.e [0] = 1 := by simpa using hB
  refine ⟨s, hs, hN, fun env env' tol htol h h' hx n hn => ?_⟩
  have key := (C97_inexact exFresh freshI _ _ _ _ _ _ _ _ _ _ _ _ false s idealCsFunction_spec pre hs 1 1 2 1 (1 / 2)
    (loop_regular freshI) T hT (1 / 2) 1 H (fun j hj => by
      rw [hM] at hj ⊢
      obtain rfl : j = 0 := by omega
      rw [Finset.sum_range_one, hA0]
      norm_num) (by rw [hM, Finset.sum_range_one, hB0, abs_one]) (by rw [hN]; exact ht) (by norm_num) (by linarith) env env' tol 0 0 h
    (fun v hv => by rw [h' v hv, abs_zero]) ⟨htol, le_rfl⟩ (fun n _ i hi => absurd hi (Nat.not_lt_zero _))
    (fun c _ i hi => absurd hi (Nat.not_lt_zero _)) le_rfl (fun i hi => by
      obtain rfl : i = 0 := by change i < 1 at hi; omega
      rw [hx, sub_self, abs_zero])).1 n hn 0 Nat.one_pos
  rw [h0] at key
  norm_num at key
  exact key

end CE
