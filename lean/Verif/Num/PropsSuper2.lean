import Verif.Num.PropsSuper
import Verif.Num.PropsIndex2

/-!
# Property C92: order at the grid points for models with algebraic states and for quadratures
-/

open Set

namespace CE

/-- Where the residual vanishes, the state derivative is a differentiable function of the state along the solution `y` (which has the
derivative `f`), with the Jacobian `J n i l τ` on the interval `n` and a quadratic bound of the remainder. -/
structure LinearizedDae (d : DaeObj ℝ) (xdot res : MXExpr ℝ) (tdp_fun : Option (ℝ → Mat ℝ)) (t : List ℝ) (u : ℕ → ℕ → ℝ) (p : ℕ → ℝ)
    (y : ℕ → ℝ → ℝ) (f : ℕ → ℕ → ℝ → ℝ) (J : ℕ → ℕ → ℕ → ℝ → ℝ) (C₂ : ℝ) : Prop where
  nonneg : 0 ≤ C₂
  expand : ∀ n < t.length - 1, ∀ τ ∈ Icc (nd t n) (nd t (n + 1)), ∀ e : Env ℝ, ResidualZero res e → InputsAt d tdp_fun u p n τ e →
    ∀ δ, (∀ i < d.nx, |d.x.val e i 0 - y i τ| ≤ δ) → ∀ i < d.nx,
      |xdot.val e i 0 - f n i τ - ∑ l ∈ Finset.range d.nx, J n i l τ * (d.x.val e l 0 - y l τ)| ≤ C₂ * δ ^ 2

/-- The same for the quadrature expression, which has the value `g` along the solution. -/
def LinearizedQuad (d : DaeObj ℝ) (res : MXExpr ℝ) (tdp_fun : Option (ℝ → Mat ℝ)) (t : List ℝ) (u : ℕ → ℕ → ℝ) (p : ℕ → ℝ)
    (y : ℕ → ℝ → ℝ) (g : ℕ → ℕ → ℝ → ℝ) (J : ℕ → ℕ → ℕ → ℝ → ℝ) (C₂ : ℝ) : Prop :=
  ∀ n < t.length - 1, ∀ τ ∈ Icc (nd t n) (nd t (n + 1)), ∀ e : Env ℝ, ResidualZero res e → InputsAt d tdp_fun u p n τ e →
    ∀ δ, (∀ i < d.nx, |d.x.val e i 0 - y i τ| ≤ δ) → ∀ k < d.nq,
      |d.quad.val e k 0 - g n k τ - ∑ l ∈ Finset.range d.nx, J n k l τ * (d.x.val e l 0 - y l τ)| ≤ C₂ * δ ^ 2

section
variable (fresh freshI : String → ℕ) (casadiPoints : ℕ → String → Except PyErr (List ℝ))
    (csFunction : List (MXExpr ℝ) → List (MXExpr ℝ) → Except PyErr (CsFn ℝ))
    (dae : DaeObj ℝ) (t : List ℝ) (order : ℕ) (method : String) (tdp_fun : Option (ℝ → Mat ℝ))
    (d : DaeObj ℝ) (xdot res : MXExpr ℝ) (tau : List ℝ) (F : CsFn ℝ) (rep : Bool) (s : Scheme ℝ)

/-- The errors of the states and of `nQ` quadratures at the grid points, if the state derivatives and the quadrature expressions at the
collocation points are Lipschitz continuous in the states, with a linear part and a quadratic remainder. -/
theorem scheme_super (pre : SchemePre freshI casadiPoints csFunction dae t order method tdp_fun d xdot res tau F)
    (b : s.Built fresh t order tdp_fun rep d xdot res tau F)
    (hd : tau.Nodup) (h01 : ∀ k < tau.length, nd tau k ∈ Icc (0 : ℝ) 1) (m : ℕ) (hm : NodesOrder tau m) (hm1 : 1 ≤ m)
    (T : ButcherTableau ℝ) (hT : butcherTableuForCollocationPoints tau = .ok T) (L θ α β H : ℝ) (hL0 : 0 ≤ L) (hH1 : H ≤ 1)
    (hα : ∀ j < order, ∑ k ∈ Finset.range order, |T.A.e [j, k]| ≤ α) (hβ : ∑ k ∈ Finset.range order, |T.b.e [k]| ≤ β)
    (ht : ∀ n < t.length - 1, nd t n < nd t (n + 1) ∧ nd t (n + 1) - nd t n ≤ H) (hθ : θ < 1) (hstep : L * (H * α) ≤ θ)
    (env : Env ℝ) (heq : ∀ v ∈ s.eq.vals env, v = 0) (nQ : ℕ) (y Y : ℕ → ℝ → ℝ) (f g : ℕ → ℕ → ℝ → ℝ)
    (hy : ∀ n < t.length - 1, ∀ i < d.nx, ∀ τ ∈ Icc (nd t n) (nd t (n + 1)),
      HasDerivWithinAt (y i) (f n i τ) (Icc (nd t n) (nd t (n + 1))) τ)
    (hY : ∀ n < t.length - 1, ∀ k < nQ, ∀ τ ∈ Icc (nd t n) (nd t (n + 1)),
      HasDerivWithinAt (Y k) (g n k τ) (Icc (nd t n) (nd t (n + 1))) τ) (B ε : ℝ)
    (hfs : ∀ n < t.length - 1, ∀ i < d.nx, ContDiffOn ℝ (order + m : ℕ) (f n i) (Icc (nd t n) (nd t (n + 1))))
    (hgs : ∀ n < t.length - 1, ∀ k < nQ, ContDiffOn ℝ (order + m : ℕ) (g n k) (Icc (nd t n) (nd t (n + 1))))
    (hfB : ∀ n < t.length - 1, ∀ i < d.nx, ∀ q, order ≤ q → q ≤ order + m → ∀ τ ∈ Icc (nd t n) (nd t (n + 1)),
      |iteratedDerivWithin q (f n i) (Icc (nd t n) (nd t (n + 1))) τ| ≤ B)
    (hgB : ∀ n < t.length - 1, ∀ k < nQ, ∀ q, order ≤ q → q ≤ order + m → ∀ τ ∈ Icc (nd t n) (nd t (n + 1)),
      |iteratedDerivWithin q (g n k) (Icc (nd t n) (nd t (n + 1))) τ| ≤ B) (hB0 : 0 ≤ B)
    (J Jq : ℕ → ℕ → ℕ → ℝ → ℝ) (C₂ Γ : ℝ) (hC0 : 0 ≤ C₂) (hΓ : 1 ≤ Γ)
    (hJs : ∀ n < t.length - 1, ∀ i < d.nx, ∀ l < d.nx, ContDiffOn ℝ (m - 1 : ℕ) (J n i l) (Icc (nd t n) (nd t (n + 1))))
    (hQs : ∀ n < t.length - 1, ∀ k < nQ, ∀ l < d.nx, ContDiffOn ℝ (m - 1 : ℕ) (Jq n k l) (Icc (nd t n) (nd t (n + 1))))
    (hJ : ∀ n < t.length - 1, ∀ i < d.nx, ∀ l < d.nx, ∀ q < m, ∀ τ ∈ Icc (nd t n) (nd t (n + 1)),
      (d.nx + nQ : ℕ) * |iteratedDerivWithin q (J n i l) (Icc (nd t n) (nd t (n + 1))) τ| ≤ Γ)
    (hQ : ∀ n < t.length - 1, ∀ k < nQ, ∀ l < d.nx, ∀ q < m, ∀ τ ∈ Icc (nd t n) (nd t (n + 1)),
      (d.nx + nQ : ℕ) * |iteratedDerivWithin q (Jq n k l) (Icc (nd t n) (nd t (n + 1))) τ| ≤ Γ)
    (hrate : ∀ n < t.length - 1, ∀ j < order, ∀ δ, 0 ≤ δ →
      (∀ i < d.nx, |s.X.val env i (n * order + j) - y i (nd s.tc (n * order + j))| ≤ δ) →
      (∀ i < d.nx, |env (fresh "K") i (n * order + j) - f n i (nd s.tc (n * order + j))| ≤ L * δ) ∧
      ∀ k < nQ, |s.quad.val env k (n * order + j) - g n k (nd s.tc (n * order + j))| ≤ L * δ)
    (hrem : ∀ n < t.length - 1, ∀ j < order, ∀ δ,
      (∀ i < d.nx, |s.X.val env i (n * order + j) - y i (nd s.tc (n * order + j))| ≤ δ) →
      (∀ i < d.nx, |env (fresh "K") i (n * order + j) - f n i (nd s.tc (n * order + j)) - ∑ l ∈ Finset.range d.nx,
        J n i l (nd s.tc (n * order + j)) * (s.X.val env l (n * order + j) - y l (nd s.tc (n * order + j)))| ≤ C₂ * δ ^ 2) ∧
      ∀ k < nQ, |s.quad.val env k (n * order + j) - g n k (nd s.tc (n * order + j)) - ∑ l ∈ Finset.range d.nx,
        Jq n k l (nd s.tc (n * order + j)) * (s.X.val env l (n * order + j) - y l (nd s.tc (n * order + j)))| ≤ C₂ * δ ^ 2)
    (hε : 0 ≤ ε) (h0 : ∀ i < d.nx, |s.x.val env i 0 - y i (nd t 0)| ≤ ε) :
    let W := m ^ 2 * Γ ^ (m + 1)
    let Q := (1 + α) * B / (1 - θ)
    let G := W * (1 + β * (1 + 2 * (L + Γ)) / (1 - θ))
    let D := W * (β * (Q + 4 * C₂ * Q ^ 2) + (1 + β) * B)
    let bound := fun n => Real.exp (G * (nd t n - nd t 0)) * (ε + (nd t n - nd t 0) * (D * H ^ (order + m)))
    ∀ n < t.length, (∀ i < d.nx, |s.x.val env i n - y i (nd t n)| ≤ bound n) ∧
      ∀ k < nQ, |s.q.val env k n - (Y k (nd t n) - Y k (nd t 0))| ≤ bound n := by
  intro W Q G D bound
  have hpos := pre.pos
  have htwo := pre.two
  have hA : ∀ i j, T.A.e [i, j] = wA tau i j := by
    intro i j
    rw [butcher_ok] at hT; cases hT
    rfl
  have hb : ∀ k < order, T.b.e [k] = wb tau k := by
    intro k hk
    rw [butcher_ok] at hT; cases hT
    simp [NdArray.vec, nd, List.getD_eq_getElem?_getD, pre.len, hk, wb]
  have hlen := pre.len
  have hα' : ∀ j < tau.length, ∑ k ∈ Finset.range tau.length, |wA tau j k| ≤ α := by
    intro j hj
    rw [hlen] at hj ⊢
    simpa only [hA] using hα j hj
  have hβ' : ∑ k ∈ Finset.range tau.length, |wb tau k| ≤ β := by
    rw [hlen]
    refine le_trans (le_of_eq (Finset.sum_congr rfl fun k hk => ?_)) hβ
    rw [hb k (Finset.mem_range.mp hk)]
  have hH0 : 0 ≤ H := by
    have := ht 0 (by omega)
    linarith [this.1, this.2]
  have hcont := ((Scheme.eq_zero_iff pre b env).mp heq).2.1
  -- the states and the quadratures together
  let nx := d.nx
  let y2 : ℕ → ℝ → ℝ := fun i => if i < nx then y i else Y (i - nx)
  let f2 : ℕ → ℕ → ℝ → ℝ := fun n i => if i < nx then f n i else g n (i - nx)
  let J2 : ℕ → ℕ → ℕ → ℝ → ℝ := fun n i l => if l < nx then (if i < nx then J n i l else Jq n (i - nx) l) else fun _ => 0
  let x2 : ℕ → ℕ → ℝ := fun n i => if i < nx then s.x.val env i n else s.q.val env (i - nx) n + Y (i - nx) (nd t 0)
  let k2 : ℕ → ℕ → ℕ → ℝ := fun n i j => if i < nx then env (fresh "K") i (n * order + j) else s.quad.val env (i - nx) (n * order + j)
  let X2 : ℕ → ℕ → ℕ → ℝ := fun n i j => if i < nx then s.X.val env i (n * order + j) else
    x2 n i + (nd t (n + 1) - nd t n) * ∑ l ∈ Finset.range order, k2 n i l * wA tau j l
  -- a statement for all components
  have comps : ∀ P : ℕ → Prop, (∀ i < nx, P i) → (∀ k < nQ, P (nx + k)) → ∀ i < nx + nQ, P i := by
    intro P h1 h2 i hi
    rcases lt_or_ge i nx with h | h
    · exact h1 i h
    · obtain ⟨k, rfl⟩ := Nat.exists_eq_add_of_le h
      exact h2 k (by omega)
  have key := super_core hd (by rw [hlen]; exact hpos) h01 hm1 (C91_order_le tau m hm) (weightsExact hd hm) hα' hβ' hL0 hC0 hB0 hΓ hε hH0
    hH1 hθ hstep (nx + nQ) (t.length - 1) ht (y := y2) (f := f2)
    (fun n hn => comps _ (fun i hi => by simpa only [y2, f2, if_pos hi] using hy n hn i hi)
      (fun k hk => by simpa [y2, f2] using hY n hn k hk))
    (fun n hn => comps _ (fun i hi => by simpa only [f2, if_pos hi, hlen] using hfs n hn i hi)
      (fun k hk => by simpa [f2, hlen] using hgs n hn k hk))
    (fun n hn => comps _ (fun i hi => by simpa only [f2, if_pos hi, hlen] using hfB n hn i hi)
      (fun k hk => by simpa [f2, hlen] using hgB n hn k hk))
    (J := J2)
    (fun n hn => comps _
      (fun i hi => comps _ (fun l hl => by simpa only [J2, if_pos hi, if_pos hl] using hJs n hn i hi l hl)
        (fun l _ => by simpa [J2] using contDiffOn_const))
      (fun k hk => comps _ (fun l hl => by simpa [J2, if_pos hl] using hQs n hn k hk l hl)
        (fun l _ => by simpa [J2] using contDiffOn_const)))
    (fun n hn => comps _
      (fun i hi => comps _ (fun l hl => by simpa only [J2, if_pos hi, if_pos hl] using hJ n hn i hi l hl)
        (fun l _ q _ τ _ => by
          have : iteratedDerivWithin q (J2 n i (nx + l)) (Icc (nd t n) (nd t (n + 1))) τ = 0 := by simp [J2]
          rw [this]; simp; linarith))
      (fun k hk => comps _ (fun l hl => by simpa [J2, if_pos hl] using hQ n hn k hk l hl)
        (fun l _ q _ τ _ => by
          have : iteratedDerivWithin q (J2 n (nx + k) (nx + l)) (Icc (nd t n) (nd t (n + 1))) τ = 0 := by simp [J2]
          rw [this]; simp; linarith)))
    (x := x2) (X' := X2) (k := k2) ?_ ?_ ?_ ?_ ?_
  · intro n hn
    have := key n (by omega)
    rw [hlen] at this
    refine ⟨fun i hi => by simpa only [x2, y2, nx, if_pos hi] using this i (Nat.lt_add_right _ hi), fun k hk => ?_⟩
    have h := this (nx + k) (by omega)
    simp only [x2, y2, if_neg (Nat.not_lt.mpr (Nat.le_add_right nx k)), Nat.add_sub_cancel_left] at h
    rwa [add_sub_assoc, ← neg_sub, ← sub_eq_add_neg] at h
  · intro n hn
    refine comps _ (fun i hi j hj => ?_) (fun k hk j hj => ?_)
    · rw [hlen] at hj ⊢
      simp only [X2, x2, k2, if_pos hi]
      rw [b.X env i n j hn hj, b.x]
      rfl
    · rw [hlen]
      simp only [X2, if_neg (Nat.not_lt.mpr (Nat.le_add_right nx k))]
  · intro n hn
    refine comps _ (fun i hi => ?_) (fun k hk => ?_)
    · have := hcont n hn i hi
      rw [b.cont env i n hn, sub_eq_zero] at this
      simp only [x2, k2, if_pos hi]
      rw [hlen, b.x]
      exact this.symm
    · simp only [x2, k2, if_neg (Nat.not_lt.mpr (Nat.le_add_right nx k)), Nat.add_sub_cancel_left]
      rw [b.q env k n hn, hlen]
      ring
  · intro n hn j hj δ hδ i hi
    rw [hlen] at hj
    have hδ0 : 0 ≤ δ := (abs_nonneg _).trans (hδ i hi)
    have h1 := hrate n hn j hj δ hδ0 (fun i hi => by
      have := hδ i (Nat.lt_add_right _ hi)
      rw [b.tc n j hn hj]
      simpa only [X2, y2, nx, if_pos hi] using this)
    rw [b.tc n j hn hj] at h1
    revert i
    refine comps _ (fun i hi => ?_) (fun k hk => ?_)
    · simpa only [k2, f2, if_pos hi] using h1.1 i hi
    · simpa [k2, f2] using h1.2 k hk
  · intro n hn j hj δ hδ
    rw [hlen] at hj
    have h1 := hrem n hn j hj δ (fun i hi => by
      have := hδ i (Nat.lt_add_right _ hi)
      rw [b.tc n j hn hj]
      simpa only [X2, y2, nx, if_pos hi] using this)
    rw [b.tc n j hn hj] at h1
    have hsum : ∀ i, ∑ l ∈ Finset.range (nx + nQ), J2 n i l (nd t n + (nd t (n + 1) - nd t n) * nd tau j) *
        (X2 n l j - y2 l (nd t n + (nd t (n + 1) - nd t n) * nd tau j)) =
        ∑ l ∈ Finset.range nx, (if i < nx then J n i l else Jq n (i - nx) l) (nd t n + (nd t (n + 1) - nd t n) * nd tau j) *
        (s.X.val env l (n * order + j) - y l (nd t n + (nd t (n + 1) - nd t n) * nd tau j)) := by
      intro i
      rw [Finset.sum_range_add, Finset.sum_eq_zero (s := Finset.range nQ) (fun l _ => by simp [J2]), add_zero]
      refine Finset.sum_congr rfl fun l hl => ?_
      simp only [J2, X2, y2, if_pos (Finset.mem_range.mp hl)]
    refine comps _ (fun i hi => ?_) (fun k hk => ?_)
    · rw [hsum]
      simp only [k2, f2, if_pos hi]
      exact h1.1 i hi
    · rw [hsum]
      simp only [k2, f2, if_neg (Nat.not_lt.mpr (Nat.le_add_right nx k)), Nat.add_sub_cancel_left]
      exact h1.2 k hk
  · refine comps _ (fun i hi => by simpa only [x2, y2, if_pos hi] using h0 i hi) (fun k hk => ?_)
    simp only [x2, y2, if_neg (Nat.not_lt.mpr (Nat.le_add_right nx k)), Nat.add_sub_cancel_left]
    rw [b.q_zero]
    simpa using hε

/-- The residual vanishes at a collocation point of a solution of the collocation equations. -/
theorem point_vals (hcs : IsCsFunction csFunction)
    (pre : SchemePre freshI casadiPoints csFunction dae t order method tdp_fun d xdot res tau F)
    (b : s.Built fresh t order tdp_fun rep d xdot res tau F) (env : Env ℝ) (heq : ∀ v ∈ s.eq.vals env, v = 0)
    (n j : ℕ) (hn : n < t.length - 1) (hj : j < order) :
    ∃ e, ResidualZero res e ∧ InputsAt d tdp_fun (s.u.val env) (fun i => s.p.val env i 0) n (nd s.tc (n * order + j)) e ∧
      (∀ i < d.nx, d.x.val e i 0 = s.X.val env i (n * order + j)) ∧ (∀ i < d.nx, xdot.val e i 0 = env (fresh "K") i (n * order + j)) ∧
      ∀ k < d.nq, d.quad.val e k 0 = s.quad.val env k (n * order + j) := by
  have hc : n * order + j < (t.length - 1) * order := block_lt hn hj
  have hnp : d.np = d.p.rows := by simp [DaeObj.np, MXExpr.numel, pre.p]
  have hnq : d.nq = d.quad.rows := by simp [DaeObj.nq, MXExpr.numel, pre.quad]
  obtain ⟨e1, a1⟩ := exists_atPoint hcs pre b.toCore env hc
  have v1 := a1.vals pre b.toCore
  rw [div_block hj] at v1
  obtain ⟨hcol, -, hpar⟩ := (Scheme.eq_zero_iff pre b env).mp heq
  refine ⟨e1, (residual_iff fresh freshI casadiPoints csFunction dae t order method tdp_fun d xdot res tau F rep s hcs pre b hc a1).mp
    (hcol _ hc), ⟨fun i hi => ?_, fun i hi => ?_, v1.t, a1.tdp⟩, fun i hi => ?_, fun i hi => ?_, fun k hk => ?_⟩
  · rw [pre.wf.nu] at hi
    rw [v1.u i hi, b.u]; rfl
  · rw [hnp] at hi
    rw [v1.p i hi]
    cases hr : rep
    · rw [b.p]; rfl
    · have := hpar hr _ hc i (by rw [hnp]; exact hi)
      rw [b.p] at this ⊢
      exact this
  · exact v1.x i (by rw [← pre.wf.nx]; exact hi)
  · exact v1.xdot i (by rw [← pre.wf.nx]; exact hi)
  · rw [(a1.out hcs pre b.toCore hc).2 k (by rw [← hnq]; exact hk)]

/-- **C92** (superconvergence with algebraic states) For a model of index one and nodes whose quadrature formula has the order
`len(tau) + m`, the distance of the states of every solution of the collocation equations from the exact states at the grid points
is bounded by an explicit constant times `H^(len(tau) + m)`, plus the propagated error of the initial state. -/
theorem C92_superconvergence (hcs : IsCsFunction csFunction)
    (pre : SchemePre freshI casadiPoints csFunction dae t order method tdp_fun d xdot res tau F)
    (hs : Scheme.new fresh freshI casadiPoints csFunction dae t order method tdp_fun rep = .ok s)
    (hf : [fresh "x", fresh "K", fresh "Z", fresh "u", fresh "P"].Nodup) (L Lz θ : ℝ) (ix : IndexOne d xdot res L Lz)
    (hd : tau.Nodup) (h01 : ∀ k < tau.length, nd tau k ∈ Icc (0 : ℝ) 1) (m : ℕ) (hm : NodesOrder tau m) (hm1 : 1 ≤ m)
    (T : ButcherTableau ℝ) (hT : butcherTableuForCollocationPoints tau = .ok T) (α β H : ℝ) (hH1 : H ≤ 1)
    (hα : ∀ j < s.M, ∑ k ∈ Finset.range s.M, |T.A.e [j, k]| ≤ α) (hβ : ∑ k ∈ Finset.range s.M, |T.b.e [k]| ≤ β)
    (ht : ∀ n < s.N, nd t n < nd t (n + 1) ∧ nd t (n + 1) - nd t n ≤ H) (hθ : θ < 1) (hstep : L * (H * α) ≤ θ)
    (env : Env ℝ) (heq : ∀ v ∈ s.eq.vals env, v = 0)
    (y : ℕ → ℝ → ℝ) (f ζ : ℕ → ℕ → ℝ → ℝ)
    (ex : ExactDae d xdot res tdp_fun t (s.u.val env) (fun i => s.p.val env i 0) y f ζ) (B ε : ℝ)
    (hsm : ∀ n < s.N, ∀ i < d.nx, ContDiffOn ℝ (s.M + m : ℕ) (f n i) (Icc (nd t n) (nd t (n + 1))))
    (hB : ∀ n < s.N, ∀ i < d.nx, ∀ q, s.M ≤ q → q ≤ s.M + m → ∀ τ ∈ Icc (nd t n) (nd t (n + 1)),
      |iteratedDerivWithin q (f n i) (Icc (nd t n) (nd t (n + 1))) τ| ≤ B) (hB0 : 0 ≤ B)
    (J : ℕ → ℕ → ℕ → ℝ → ℝ) (C₂ Γ : ℝ) (hΓ : 1 ≤ Γ)
    (lin : LinearizedDae d xdot res tdp_fun t (s.u.val env) (fun i => s.p.val env i 0) y f J C₂)
    (hJs : ∀ n < s.N, ∀ i < d.nx, ∀ l < d.nx, ContDiffOn ℝ (m - 1 : ℕ) (J n i l) (Icc (nd t n) (nd t (n + 1))))
    (hJ : ∀ n < s.N, ∀ i < d.nx, ∀ l < d.nx, ∀ q < m, ∀ τ ∈ Icc (nd t n) (nd t (n + 1)),
      d.nx * |iteratedDerivWithin q (J n i l) (Icc (nd t n) (nd t (n + 1))) τ| ≤ Γ)
    (hε : 0 ≤ ε) (h0 : ∀ i < d.nx, |s.x.val env i 0 - y i (nd t 0)| ≤ ε) :
    let W := m ^ 2 * Γ ^ (m + 1)
    let Q := (1 + α) * B / (1 - θ)
    let G := W * (1 + β * (1 + 2 * (L + Γ)) / (1 - θ))
    let D := W * (β * (Q + 4 * C₂ * Q ^ 2) + (1 + β) * B)
    ∀ n ≤ s.N, ∀ i < d.nx, |s.x.val env i n - y i (nd t n)| ≤
      Real.exp (G * (nd t n - nd t 0)) * (ε + (nd t n - nd t 0) * (D * H ^ (s.M + m))) := by
  intro W Q G D n hn i hi
  have b := pre.built hs
  have htwo := pre.two
  rw [b.N_eq] at hn ht hsm hB hJs hJ
  rw [b.M_eq] at hα hβ hsm hB ⊢
  have ht' : ∀ n < t.length - 1, nd t n ≤ nd t (n + 1) := fun n hn => (ht n hn).1.le
  refine (scheme_super fresh freshI casadiPoints csFunction dae t order method tdp_fun d xdot res tau F rep s pre b hd h01 m hm hm1 T hT
    L θ α β H ix.nonneg hH1 hα hβ ht hθ hstep env heq 0 y (fun _ _ => 0) f (fun _ _ _ => 0) ex.deriv (fun _ _ k hk => absurd hk (Nat.not_lt_zero k))
    B ε hsm (fun _ _ k hk => absurd hk (Nat.not_lt_zero k)) hB (fun _ _ k hk => absurd hk (Nat.not_lt_zero k)) hB0 J (fun _ _ _ _ => 0) C₂ Γ
    lin.nonneg hΓ hJs (fun _ _ k hk => absurd hk (Nat.not_lt_zero k)) (by rw [Nat.add_zero]; exact hJ)
    (fun _ _ k hk => absurd hk (Nat.not_lt_zero k)) (fun n hn j hj δ hδ0 hδ => ⟨?_, fun k hk => absurd hk (Nat.not_lt_zero k)⟩)
    (fun n hn j hj δ hδ => ⟨fun i hi => ?_, fun k hk => absurd hk (Nat.not_lt_zero k)⟩) hε h0 n (by omega)).1 i hi
  · exact (point_error fresh freshI casadiPoints csFunction dae t order method tdp_fun d xdot res tau F rep s hcs pre b hf L Lz ix h01 ht' env
      heq y f ζ ex n j hn hj δ hδ0 hδ).1
  · obtain ⟨e, r, inp, x1, k1, -⟩ := point_vals fresh freshI casadiPoints csFunction dae t order method tdp_fun d xdot res tau F rep s hcs
      pre b env heq n j hn hj
    have hmem : nd s.tc (n * order + j) ∈ Icc (nd t n) (nd t (n + 1)) := by
      rw [b.tc n j hn hj]
      have h1 := h01 j (by rw [pre.len]; exact hj)
      have h2 := ht' n hn
      constructor <;> nlinarith [h1.1, h1.2]
    have := lin.expand n hn _ hmem e r inp δ (fun i hi => by rw [x1 i hi]; exact hδ i hi) i hi
    rw [k1 i hi] at this
    refine le_trans (le_of_eq ?_) this
    congr 2
    exact Finset.sum_congr rfl fun l hl => by rw [x1 l (Finset.mem_range.mp hl)]

/-- **C92** (quadratures) The quadratures at the grid points have the same order: for a model of index one (in particular, an ordinary
differential equation) the distance of the states and of the quadratures of every solution of the collocation equations from the exact
states and from the exact integrals is bounded by an explicit constant times `H^(len(tau) + m)`, plus the propagated error of the
initial state. -/
theorem C92_quadrature (hcs : IsCsFunction csFunction)
    (pre : SchemePre freshI casadiPoints csFunction dae t order method tdp_fun d xdot res tau F)
    (hs : Scheme.new fresh freshI casadiPoints csFunction dae t order method tdp_fun rep = .ok s)
    (hf : [fresh "x", fresh "K", fresh "Z", fresh "u", fresh "P"].Nodup) (L Lz Lq Lqz Λ θ : ℝ) (ix : IndexOne d xdot res L Lz)
    (lq : LipschitzQuadZ d Lq Lqz) (hΛ : L ≤ Λ) (hΛq : Lq + Lqz * Lz ≤ Λ)
    (hd : tau.Nodup) (h01 : ∀ k < tau.length, nd tau k ∈ Icc (0 : ℝ) 1) (m : ℕ) (hm : NodesOrder tau m) (hm1 : 1 ≤ m)
    (T : ButcherTableau ℝ) (hT : butcherTableuForCollocationPoints tau = .ok T) (α β H : ℝ) (hH1 : H ≤ 1)
    (hα : ∀ j < s.M, ∑ k ∈ Finset.range s.M, |T.A.e [j, k]| ≤ α) (hβ : ∑ k ∈ Finset.range s.M, |T.b.e [k]| ≤ β)
    (ht : ∀ n < s.N, nd t n < nd t (n + 1) ∧ nd t (n + 1) - nd t n ≤ H) (hθ : θ < 1) (hstep : Λ * (H * α) ≤ θ)
    (env : Env ℝ) (heq : ∀ v ∈ s.eq.vals env, v = 0)
    (y Y : ℕ → ℝ → ℝ) (f ζ g : ℕ → ℕ → ℝ → ℝ)
    (ex : ExactDae d xdot res tdp_fun t (s.u.val env) (fun i => s.p.val env i 0) y f ζ)
    (exq : ExactQuadratureZ d xdot tdp_fun t (s.u.val env) (fun i => s.p.val env i 0) y ζ Y g) (B ε : ℝ)
    (hsm : ∀ n < s.N, (∀ i < d.nx, ContDiffOn ℝ (s.M + m : ℕ) (f n i) (Icc (nd t n) (nd t (n + 1)))) ∧
      ∀ k < d.nq, ContDiffOn ℝ (s.M + m : ℕ) (g n k) (Icc (nd t n) (nd t (n + 1))))
    (hB : ∀ n < s.N, ∀ q, s.M ≤ q → q ≤ s.M + m → ∀ τ ∈ Icc (nd t n) (nd t (n + 1)),
      (∀ i < d.nx, |iteratedDerivWithin q (f n i) (Icc (nd t n) (nd t (n + 1))) τ| ≤ B) ∧
      ∀ k < d.nq, |iteratedDerivWithin q (g n k) (Icc (nd t n) (nd t (n + 1))) τ| ≤ B) (hB0 : 0 ≤ B)
    (J Jq : ℕ → ℕ → ℕ → ℝ → ℝ) (C₂ Γ : ℝ) (hΓ : 1 ≤ Γ)
    (lin : LinearizedDae d xdot res tdp_fun t (s.u.val env) (fun i => s.p.val env i 0) y f J C₂)
    (linq : LinearizedQuad d res tdp_fun t (s.u.val env) (fun i => s.p.val env i 0) y g Jq C₂)
    (hJs : ∀ n < s.N, ∀ l < d.nx, (∀ i < d.nx, ContDiffOn ℝ (m - 1 : ℕ) (J n i l) (Icc (nd t n) (nd t (n + 1)))) ∧
      ∀ k < d.nq, ContDiffOn ℝ (m - 1 : ℕ) (Jq n k l) (Icc (nd t n) (nd t (n + 1))))
    (hJ : ∀ n < s.N, ∀ l < d.nx, ∀ q < m, ∀ τ ∈ Icc (nd t n) (nd t (n + 1)),
      (∀ i < d.nx, (d.nx + d.nq : ℕ) * |iteratedDerivWithin q (J n i l) (Icc (nd t n) (nd t (n + 1))) τ| ≤ Γ) ∧
      ∀ k < d.nq, (d.nx + d.nq : ℕ) * |iteratedDerivWithin q (Jq n k l) (Icc (nd t n) (nd t (n + 1))) τ| ≤ Γ)
    (hε : 0 ≤ ε) (h0 : ∀ i < d.nx, |s.x.val env i 0 - y i (nd t 0)| ≤ ε) :
    let W := m ^ 2 * Γ ^ (m + 1)
    let Q := (1 + α) * B / (1 - θ)
    let G := W * (1 + β * (1 + 2 * (Λ + Γ)) / (1 - θ))
    let D := W * (β * (Q + 4 * C₂ * Q ^ 2) + (1 + β) * B)
    let bound := fun n => Real.exp (G * (nd t n - nd t 0)) * (ε + (nd t n - nd t 0) * (D * H ^ (s.M + m)))
    ∀ n ≤ s.N, (∀ i < d.nx, |s.x.val env i n - y i (nd t n)| ≤ bound n) ∧
      ∀ k < d.nq, |s.q.val env k n - (Y k (nd t n) - Y k (nd t 0))| ≤ bound n := by
  intro W Q G D bound n hn
  have b := pre.built hs
  have htwo := pre.two
  have hnp : d.np = d.p.rows := by simp [DaeObj.np, MXExpr.numel, pre.p]
  have hnq : d.nq = d.quad.rows := by simp [DaeObj.nq, MXExpr.numel, pre.quad]
  simp only [bound]
  rw [b.N_eq] at hn ht hsm hB hJs hJ
  rw [b.M_eq] at hα hβ hsm hB ⊢
  have ht' : ∀ n < t.length - 1, nd t n ≤ nd t (n + 1) := fun n hn => (ht n hn).1.le
  have hmem : ∀ n < t.length - 1, ∀ j < order, nd s.tc (n * order + j) ∈ Icc (nd t n) (nd t (n + 1)) := by
    intro n hn j hj
    rw [b.tc n j hn hj]
    have h1 := h01 j (by rw [pre.len]; exact hj)
    have h2 := ht' n hn
    constructor <;> nlinarith [h1.1, h1.2]
  refine scheme_super fresh freshI casadiPoints csFunction dae t order method tdp_fun d xdot res tau F rep s pre b hd h01 m hm hm1 T hT
    Λ θ α β H (ix.nonneg.trans hΛ) hH1 hα hβ ht hθ hstep env heq d.nq y Y f g ex.deriv exq.deriv B ε
    (fun n hn => (hsm n hn).1) (fun n hn => (hsm n hn).2) (fun n hn i hi q h1 h2 τ hτ => (hB n hn q h1 h2 τ hτ).1 i hi)
    (fun n hn i hi q h1 h2 τ hτ => (hB n hn q h1 h2 τ hτ).2 i hi) hB0 J Jq C₂ Γ lin.nonneg hΓ
    (fun n hn i hi l hl => (hJs n hn l hl).1 i hi) (fun n hn i hi l hl => (hJs n hn l hl).2 i hi)
    (fun n hn i hi l hl q hq τ hτ => (hJ n hn l hl q hq τ hτ).1 i hi) (fun n hn i hi l hl q hq τ hτ => (hJ n hn l hl q hq τ hτ).2 i hi)
    (fun n hn j hj δ hδ0 hδ => ?_) (fun n hn j hj δ hδ => ?_) hε h0 n (by omega)
  · obtain ⟨r1, r2⟩ := point_error fresh freshI casadiPoints csFunction dae t order method tdp_fun d xdot res tau F rep s hcs pre b hf L Lz
      ix h01 ht' env heq y f ζ ex n j hn hj δ hδ0 hδ
    refine ⟨fun i hi => (r1 i hi).trans (mul_le_mul_of_nonneg_right hΛ hδ0), fun k hk => ?_⟩
    have hc : n * order + j < (t.length - 1) * order := block_lt hn hj
    have hm' := hmem n hn j hj
    set τ := nd s.tc (n * order + j) with hτ
    obtain ⟨-, -, hpar⟩ := (Scheme.eq_zero_iff pre b env).mp heq
    obtain ⟨e1, a1⟩ := exists_atPoint hcs pre b.toCore env hc
    have v1 := a1.vals pre b.toCore
    rw [div_block hj, ← hτ] at v1
    obtain ⟨e2, v2⟩ := exists_pointVals fresh freshI casadiPoints csFunction dae t order method tdp_fun d xdot res tau F rep s hcs pre b hf
      env hn hj (fun _ => 0) (fun i => y i τ) (fun k => ζ n k τ)
    rw [← hτ] at v2
    have hval := exq.value n hn τ hm' (fun _ => 0) e2 ⟨v2.xdot, v2.x, v2.z, fun i hi => by rw [v2.u i hi, b.u]; rfl, fun i hi => by
      rw [v2.p i hi]
      cases hr : rep
      · rw [b.p]; rfl
      · have := hpar hr _ hc i (by rw [hnp]; exact hi)
        rw [b.p] at this ⊢
        exact this, v2.t, v2.tdp⟩ k hk
    rw [(a1.out hcs pre b.toCore hc).2 k (by rw [← hnq]; exact hk), ← hval]
    refine (lq e1 e2 (fun i hi => by rw [v1.u i hi, v2.u i hi]) (fun i hi => by rw [v1.p i hi, v2.p i hi]) (by rw [v1.t, v2.t])
      (fun i hi l hl => by rw [v1.tdp i hi l hl, v2.tdp i hi l hl]) δ (Lz * δ) (fun i hi => ?_) (fun l hl => ?_) k hk).trans ?_
    · have hi' : i < d.x.rows := by rw [← pre.wf.nx]; exact hi
      rw [v1.x i hi', v2.x i hi']
      exact hδ i hi
    · have hl' : l < d.z.rows := by rw [← pre.wf.nz]; exact hl
      rw [v1.z l hl', v2.z l hl']
      exact r2 l hl
    · have := mul_le_mul_of_nonneg_right hΛq hδ0
      linarith
  · obtain ⟨e, r, inp, x1, k1, q1⟩ := point_vals fresh freshI casadiPoints csFunction dae t order method tdp_fun d xdot res tau F rep s hcs
      pre b env heq n j hn hj
    have hx : ∀ i < d.nx, |d.x.val e i 0 - y i (nd s.tc (n * order + j))| ≤ δ := fun i hi => by rw [x1 i hi]; exact hδ i hi
    have hsum : ∀ c : ℕ → ℝ, ∑ l ∈ Finset.range d.nx, c l * (d.x.val e l 0 - y l (nd s.tc (n * order + j))) =
        ∑ l ∈ Finset.range d.nx, c l * (s.X.val env l (n * order + j) - y l (nd s.tc (n * order + j))) :=
      fun c => Finset.sum_congr rfl fun l hl => by rw [x1 l (Finset.mem_range.mp hl)]
    refine ⟨fun i hi => ?_, fun k hk => ?_⟩
    · have := lin.expand n hn _ (hmem n hn j hj) e r inp δ hx i hi
      rwa [k1 i hi, hsum fun l => J n i l (nd s.tc (n * order + j))] at this
    · have := linq n hn _ (hmem n hn j hj) e r inp δ hx k hk
      rwa [q1 k hk, hsum fun l => Jq n k l (nd s.tc (n * order + j))] at this

/-- **C92** (integrator) The states at the grid points and the quadratures `qf` that the integrator of a model of index one returns have
the order of the quadrature formula of the nodes. -/
theorem C92_integrator (hcs : IsCsFunction csFunction)
    (pre : SchemePre freshI casadiPoints csFunction dae t order method tdp_fun d xdot res tau F)
    (hfr : DistinctSyms fresh) (hpq : dae.np = 0 ∨ dae.nq = 0) (L Lz Lq Lqz Λ θ : ℝ) (ix : IndexOne d xdot res L Lz)
    (lq : LipschitzQuadZ d Lq Lqz) (hΛ : L ≤ Λ) (hΛq : Lq + Lqz * Lz ≤ Λ)
    (hd : tau.Nodup) (h01 : ∀ k < tau.length, nd tau k ∈ Icc (0 : ℝ) 1) (m : ℕ) (hm : NodesOrder tau m) (hm1 : 1 ≤ m)
    (T : ButcherTableau ℝ) (hT : butcherTableuForCollocationPoints tau = .ok T) (α β H : ℝ) (hH1 : H ≤ 1)
    (hα : ∀ j < order, ∑ k ∈ Finset.range order, |T.A.e [j, k]| ≤ α) (hβ : ∑ k ∈ Finset.range order, |T.b.e [k]| ≤ β)
    (ht : ∀ n < t.length - 1, nd t n < nd t (n + 1) ∧ nd t (n + 1) - nd t n ≤ H) (hθ : θ < 1) (hstep : Λ * (H * α) ≤ θ)
    (rootfinder : (List ℝ → List ℝ) → List ℝ → Except PyErr (List ℝ)) (hrf : IsRootfinder rootfinder) :
    ∃ int, Integrator.new fresh freshI casadiPoints csFunction dae t order method tdp_fun = .ok int ∧
      ∀ x0 z0 u p out, int.call rootfinder x0 z0 u p = .ok out →
      ∀ (y Y : ℕ → ℝ → ℝ) (f ζ g : ℕ → ℕ → ℝ → ℝ), ExactDae d xdot res tdp_fun t u.e (fun i => p.e i 0) y f ζ →
      ExactQuadratureZ d xdot tdp_fun t u.e (fun i => p.e i 0) y ζ Y g →
      ∀ B, 0 ≤ B → (∀ n < t.length - 1, (∀ i < d.nx, ContDiffOn ℝ (order + m : ℕ) (f n i) (Icc (nd t n) (nd t (n + 1)))) ∧
        ∀ k < d.nq, ContDiffOn ℝ (order + m : ℕ) (g n k) (Icc (nd t n) (nd t (n + 1)))) →
      (∀ n < t.length - 1, ∀ q, order ≤ q → q ≤ order + m → ∀ τ ∈ Icc (nd t n) (nd t (n + 1)),
        (∀ i < d.nx, |iteratedDerivWithin q (f n i) (Icc (nd t n) (nd t (n + 1))) τ| ≤ B) ∧
        ∀ k < d.nq, |iteratedDerivWithin q (g n k) (Icc (nd t n) (nd t (n + 1))) τ| ≤ B) →
      ∀ (J Jq : ℕ → ℕ → ℕ → ℝ → ℝ) (C₂ Γ : ℝ), 1 ≤ Γ → LinearizedDae d xdot res tdp_fun t u.e (fun i => p.e i 0) y f J C₂ →
      LinearizedQuad d res tdp_fun t u.e (fun i => p.e i 0) y g Jq C₂ →
      (∀ n < t.length - 1, ∀ l < d.nx, (∀ i < d.nx, ContDiffOn ℝ (m - 1 : ℕ) (J n i l) (Icc (nd t n) (nd t (n + 1)))) ∧
        ∀ k < d.nq, ContDiffOn ℝ (m - 1 : ℕ) (Jq n k l) (Icc (nd t n) (nd t (n + 1)))) →
      (∀ n < t.length - 1, ∀ l < d.nx, ∀ q < m, ∀ τ ∈ Icc (nd t n) (nd t (n + 1)),
        (∀ i < d.nx, (d.nx + d.nq : ℕ) * |iteratedDerivWithin q (J n i l) (Icc (nd t n) (nd t (n + 1))) τ| ≤ Γ) ∧
        ∀ k < d.nq, (d.nx + d.nq : ℕ) * |iteratedDerivWithin q (Jq n k l) (Icc (nd t n) (nd t (n + 1))) τ| ≤ Γ) →
      ∀ ε, 0 ≤ ε → (∀ i < d.nx, |x0.e i 0 - y i (nd t 0)| ≤ ε) →
      let W := m ^ 2 * Γ ^ (m + 1)
      let Q := (1 + α) * B / (1 - θ)
      let G := W * (1 + β * (1 + 2 * (Λ + Γ)) / (1 - θ))
      let D := W * (β * (Q + 4 * C₂ * Q ^ 2) + (1 + β) * B)
      let bound := fun n => Real.exp (G * (nd t n - nd t 0)) * (ε + (nd t n - nd t 0) * (D * H ^ (order + m)))
      (∀ n < t.length, ∀ i < d.nx, |out.x.e i n - y i (nd t n)| ≤ bound n) ∧
      (∀ n < t.length - 1, ∀ i < d.nx, |out.xf.e i n - y i (nd t (n + 1))| ≤ bound (n + 1)) ∧
      ∀ k < d.nq, |out.qf.e k 0 - (Y k (nd t (t.length - 1)) - Y k (nd t 0))| ≤ bound (t.length - 1) := by
  obtain ⟨s, x1, hs, -, hx1v, hnew⟩ := integrator_new fresh freshI casadiPoints csFunction dae t order method tdp_fun d xdot res tau F
    pre
  rw [if_neg (by omega)] at hnew
  have b := pre.built hs
  obtain ⟨px, -⟩ := makeImplicit_parts pre.impl
  have hnx : dae.nx = d.nx := by simp [DaeObj.nx, px]
  have htwo := pre.two
  refine ⟨_, hnew, ?_⟩
  intro x0 z0 u p out hout y Y f ζ g hex hexq B hB0 hsm hB J Jq C₂ Γ hΓ lin linq hJs hJ ε hε h0 W Q G D bound
  unfold Integrator.call at hout
  simp only [bind, Except.bind] at hout
  split at hout
  · cases hout
  rename_i sol hsol
  have hroot := (hrf _ _ _ hsol).2
  have hout := Except.ok.inj hout
  set env := Integrator.envOf fresh s sol u p with henv
  have hu : s.u.val env = u.e := by
    rw [b.u]
    show Integrator.envOf fresh s sol u p (fresh "u") = _
    unfold Integrator.envOf
    rw [if_neg hfr.xu.symm, if_neg hfr.Ku.symm, if_neg hfr.Zu.symm, if_pos rfl]
  have hp : s.p.val env = p.e := by
    rw [b.p]
    show Integrator.envOf fresh s sol u p (fresh "P") = _
    unfold Integrator.envOf
    rw [if_neg hfr.xP.symm, if_neg hfr.KP.symm, if_neg hfr.ZP.symm, if_neg hfr.uP.symm, if_pos rfl]
  have hinit : ∀ i < d.nx, s.x.val env i 0 = x0.e i 0 := by
    intro i hi
    have := hroot (x1.val env i 0 - x0.e i 0)
      (List.mem_append_right _ (List.mem_map.mpr ⟨i, List.mem_range.mpr (by omega), rfl⟩))
    rw [hx1v] at this
    exact sub_eq_zero.mp this
  have hf : [fresh "x", fresh "K", fresh "Z", fresh "u", fresh "P"].Nodup := by
    simp [hfr.xK, hfr.xZ, hfr.xu, hfr.xP, hfr.KZ, hfr.Ku, hfr.KP, hfr.Zu, hfr.ZP, hfr.uP]
  have key := C92_quadrature fresh freshI casadiPoints csFunction dae t order method tdp_fun d xdot res tau F false s hcs pre hs hf
    L Lz Lq Lqz Λ θ ix lq hΛ hΛq hd h01 m hm hm1 T hT α β H hH1 (by rw [b.M_eq]; exact hα) (by rw [b.M_eq]; exact hβ)
    (by rw [b.N_eq]; exact ht) hθ hstep env (fun v hv => hroot v (List.mem_append_left _ hv)) y Y f ζ g (by rw [hu, hp]; exact hex)
    (by rw [hu, hp]; exact hexq) B ε (by rw [b.N_eq, b.M_eq]; exact hsm) (by rw [b.N_eq, b.M_eq]; exact hB) hB0 J Jq C₂ Γ hΓ
    (by rw [hu, hp]; exact lin) (by rw [hu, hp]; exact linq)
    (by rw [b.N_eq]; exact hJs) (by rw [b.N_eq]; exact hJ) hε (fun i hi => by rw [hinit i hi]; exact h0 i hi)
  rw [b.N_eq, b.M_eq] at key
  have hqc : s.q.cols - 1 = t.length - 1 := by rw [b.q_shape.2, Nat.add_sub_cancel]
  rw [← hout]
  refine ⟨fun n hn i hi => (key n (by omega)).1 i hi, fun n hn i hi => (key (n + 1) (by omega)).1 i hi, fun k hk => ?_⟩
  show |s.q.val env k (s.q.cols - 1) - _| ≤ _
  rw [hqc]
  exact (key _ le_rfl).2 k hk

end

/-! ## Non-vacuity: `x' = z`, `0 = z - sqrt(1 + x^2)` with the quadrature `x + z` and the two Gauss nodes -/

/-- The model. -/
noncomputable def hypO : DaeObj ℝ :=
  ⟨.sym 0 1, .sym 1 1, .sym 2 0, .sym 3 0, .sym 4 1, ⟨1, 1, false, fun env _ _ => env 0 0 0 + env 1 0 0⟩, .sym 5 0,
    .semi ⟨1, 1, false, fun env _ _ => env 1 0 0⟩ ⟨1, 1, false, fun env _ _ => env 1 0 0 - √(1 + env 0 0 0 ^ 2)⟩⟩

/-- Its residual. -/
noncomputable def hypRes (freshI : String → ℕ) : MXExpr ℝ :=
  ⟨2, 1, false, fun env i j => if i < 1 then env (freshI "xdot") i j - env 1 0 0 else env 1 0 0 - √(1 + env 0 0 0 ^ 2)⟩

/-- Its implicit form. -/
noncomputable def hypD (freshI : String → ℕ) : DaeObj ℝ :=
  ⟨.sym 0 1, .sym 1 1, .sym 2 0, .sym 3 0, .sym 4 1, ⟨1, 1, false, fun env _ _ => env 0 0 0 + env 1 0 0⟩, .sym 5 0,
    .implicit (.sym (freshI "xdot") 1) (hypRes freshI)⟩

theorem hyp_pre (freshI : String → ℕ) (hI : 7 ≤ freshI "xdot") (t tau : List ℝ) (two : 2 ≤ t.length) (pos : 0 < tau.length) :
    ∃ F : CsFn ℝ, SchemePre freshI (fun _ _ => .ok tau) idealCsFunction hypO t tau.length "legendre" none (hypD freshI)
        (.sym (freshI "xdot") 1) (hypRes freshI) tau F := by
  have hfun := isFunctionOf_syms (K := ℝ) [(freshI "xdot", 1, 1), (0, 1, 1), (1, 1, 1), (2, 0, 1), (3, 0, 1), (4, 1, 1), (5, 0, 1)]
    (by simp; omega) [hypRes freshI, ⟨1, 1, false, fun env _ _ => env 0 0 0 + env 1 0 0⟩] (by
      intro o ho env1 env2 h
      simp only [List.mem_cons, List.not_mem_nil, or_false, forall_eq_or_imp, forall_eq] at h ho
      have h0 := h.2.1 0 (by omega) 0 (by omega)
      have h1 := h.2.2.1 0 (by omega) 0 (by omega)
      rcases ho with rfl | rfl
      · refine ⟨rfl, rfl, ?_⟩
        intro i hi j hj
        simp only [hypRes, MXExpr.at', h0, h1]
        split_ifs with hi1
        · rw [h.1 i hi1 j hj]
        · rfl
      · exact ⟨rfl, rfl, fun i _ j _ => by simp only [MXExpr.at', h0, h1]⟩)
  have hF : ∃ F, idealCsFunction [MXExpr.sym (freshI "xdot") 1, .sym 0 1, .sym 1 1, .sym 2 0, .sym 3 0, .sym 4 1, .sym 5 0]
      [hypRes freshI, ⟨1, 1, false, fun env _ _ => env 0 0 0 + env 1 0 0⟩] = .ok F := by
    unfold idealCsFunction
    rw [dif_pos ⟨_, hfun⟩]
    exact ⟨_, rfl⟩
  obtain ⟨F, hF⟩ := hF
  exact ⟨F, rfl, ⟨rfl, rfl, rfl, rfl, ⟨rfl, rfl⟩, rfl, rfl, rfl, rfl⟩, rfl, rfl, two, pos, rfl, rfl, ⟨rfl, rfl⟩, hF⟩

theorem hyp_zero (freshI : String → ℕ) (e : Env ℝ) :
    ResidualZero (hypRes freshI) e ↔ e (freshI "xdot") 0 0 = e 1 0 0 ∧ e 1 0 0 = √(1 + e 0 0 0 ^ 2) := by
  constructor
  · intro h
    have h1 := h 0 (by change 0 < 2; omega) 0 Nat.one_pos
    have h2 := h 1 (by change 1 < 2; omega) 0 Nat.one_pos
    simp only [hypRes, Nat.zero_lt_one, if_true, lt_irrefl, if_false] at h1 h2
    exact ⟨sub_eq_zero.mp h1, sub_eq_zero.mp h2⟩
  · rintro ⟨h1, h2⟩ i hi j hj
    change i < 2 at hi
    change j < 1 at hj
    obtain rfl : j = 0 := by omega
    rcases (by omega : i = 0 ∨ i = 1) with rfl | rfl
    · simp [hypRes, h1]
    · simp [hypRes, h2]

/-- The example is of index one and solvable. -/
theorem hyp_index (freshI : String → ℕ) : IndexOne (hypD freshI) (.sym (freshI "xdot") 1) (hypRes freshI) 1 1 ∧
    Solvable (hypD freshI) (.sym (freshI "xdot") 1) (hypRes freshI) ∧ LipschitzQuadZ (hypD freshI) 1 1 := by
  refine ⟨⟨zero_le_one, fun e e' r r' _ _ _ _ δ _ hδ => ?_⟩, fun ξ u p τ q => ?_, fun e e' _ _ _ _ δ η hδ hη k _ => ?_⟩
  · obtain ⟨r1, r2⟩ := (hyp_zero freshI e).mp r
    obtain ⟨r3, r4⟩ := (hyp_zero freshI e').mp r'
    have h1 : |e 1 0 0 - e' 1 0 0| ≤ 1 * δ := by
      rw [r2, r4, one_mul]
      exact (sqrt_lipschitz _ _).trans (hδ 0 Nat.one_pos)
    constructor
    · intro i hi
      change i < 1 at hi
      obtain rfl : i = 0 := by omega
      show |e (freshI "xdot") 0 0 - e' (freshI "xdot") 0 0| ≤ _
      rw [r1, r3]
      exact h1
    · intro k hk
      change k < 1 at hk
      obtain rfl : k = 0 := by omega
      exact h1
  · refine ⟨fun _ => √(1 + ξ 0 ^ 2), fun _ => √(1 + ξ 0 ^ 2), fun e h => (hyp_zero freshI e).mpr ?_⟩
    have h1 := h.xdot 0 Nat.one_pos
    have h2 := h.x 0 Nat.one_pos
    have h3 := h.z 0 Nat.one_pos
    simp only [hypD, MXExpr.sym] at h1 h2 h3
    rw [h1, h2, h3]
    exact ⟨rfl, rfl⟩
  · have h1 : |e 0 0 0 - e' 0 0 0| ≤ δ := hδ 0 Nat.one_pos
    have h2 : |e 1 0 0 - e' 1 0 0| ≤ η := hη 0 Nat.one_pos
    show |e 0 0 0 + e 1 0 0 - (e' 0 0 0 + e' 1 0 0)| ≤ _
    rw [add_sub_add_comm, one_mul, one_mul]
    exact (abs_add_le _ _).trans (add_le_add h1 h2)

theorem sqrt_sinh (τ : ℝ) : √(1 + Real.sinh τ ^ 2) = Real.cosh τ := by
  rw [show 1 + Real.sinh τ ^ 2 = Real.cosh τ ^ 2 by rw [Real.cosh_sq]; ring, Real.sqrt_sq (Real.cosh_pos τ).le]

/-- `x = sinh`, `z = cosh` solve the model, and `exp` is an integral of the quadrature expression. -/
theorem hyp_exact (freshI : String → ℕ) (t : List ℝ) (u : ℕ → ℕ → ℝ) (p : ℕ → ℝ) :
    ExactDae (hypD freshI) (.sym (freshI "xdot") 1) (hypRes freshI) none t u p (fun _ τ => Real.sinh τ) (fun _ _ τ => Real.cosh τ)
      (fun _ _ τ => Real.cosh τ) ∧
    ExactQuadratureZ (hypD freshI) (.sym (freshI "xdot") 1) none t u p (fun _ τ => Real.sinh τ) (fun _ _ τ => Real.cosh τ)
      (fun _ τ => Real.exp τ) (fun _ _ τ => Real.exp τ) := by
  refine ⟨⟨fun n _ i _ τ _ => (Real.hasDerivAt_sinh τ).hasDerivWithinAt, fun n _ τ _ e h => (hyp_zero freshI e).mpr ?_⟩,
    ⟨fun n _ k _ τ _ => (Real.hasDerivAt_exp τ).hasDerivWithinAt, fun n _ τ _ v e h k _ => ?_⟩⟩
  · have h1 := h.xdot 0 Nat.one_pos
    have h2 := h.x 0 Nat.one_pos
    have h3 := h.z 0 Nat.one_pos
    simp only [hypD, MXExpr.sym] at h1 h2 h3
    rw [h1, h2, h3, sqrt_sinh]
    exact ⟨rfl, rfl⟩
  · have h2 := h.x 0 Nat.one_pos
    have h3 := h.z 0 Nat.one_pos
    simp only [hypD, MXExpr.sym] at h2 h3
    show e 0 0 0 + e 1 0 0 = _
    rw [h2, h3, add_comm, Real.cosh_add_sinh]

theorem hyp_linearized (freshI : String → ℕ) (t : List ℝ) (u : ℕ → ℕ → ℝ) (p : ℕ → ℝ) :
    LinearizedDae (hypD freshI) (.sym (freshI "xdot") 1) (hypRes freshI) none t u p (fun _ τ => Real.sinh τ) (fun _ _ τ => Real.cosh τ)
      (fun _ _ _ τ => Real.sinh τ / Real.cosh τ) (1 / 2) ∧
    LinearizedQuad (hypD freshI) (hypRes freshI) none t u p (fun _ τ => Real.sinh τ) (fun _ _ τ => Real.exp τ)
      (fun _ _ _ τ => 1 + Real.sinh τ / Real.cosh τ) (1 / 2) := by
  have key : ∀ τ δ (e : Env ℝ), ResidualZero (hypRes freshI) e → |e 0 0 0 - Real.sinh τ| ≤ δ →
      |e 1 0 0 - Real.cosh τ - Real.sinh τ / Real.cosh τ * (e 0 0 0 - Real.sinh τ)| ≤ 1 / 2 * δ ^ 2 := by
    intro τ δ e r hδ
    have h3 := sqrt_expand (e 0 0 0) (Real.sinh τ) δ hδ
    rwa [sqrt_sinh, ← ((hyp_zero freshI e).mp r).2] at h3
  refine ⟨⟨by norm_num, fun n _ τ _ e r _ δ hδ i hi => ?_⟩, fun n _ τ _ e r _ δ hδ k hk => ?_⟩
  · change i < 1 at hi
    obtain rfl : i = 0 := by omega
    show |e (freshI "xdot") 0 0 - Real.cosh τ - ∑ l ∈ Finset.range 1, Real.sinh τ / Real.cosh τ * (e 0 l 0 - Real.sinh τ)| ≤ _
    rw [Finset.sum_range_one, ((hyp_zero freshI e).mp r).1]
    exact key τ δ e r (hδ 0 Nat.one_pos)
  · show |e 0 0 0 + e 1 0 0 - Real.exp τ - ∑ l ∈ Finset.range 1, (1 + Real.sinh τ / Real.cosh τ) * (e 0 l 0 - Real.sinh τ)| ≤ _
    rw [Finset.sum_range_one, ← Real.cosh_add_sinh]
    refine le_trans (le_of_eq ?_) (key τ δ e r (hδ 0 Nat.one_pos))
    congr 1
    ring

/-- The example with two Gauss nodes, `x(0) = 0` and steps of at most `H <= 1/4` on [0, 1]: the solutions of the collocation equations exist; at
the grid points the states differ from `sinh(t)` and the quadratures from `exp(t) - 1` at most by a constant times `H^4`. -/
example (freshI : String → ℕ) (hI : 7 ≤ freshI "xdot") (t : List ℝ) (two : 2 ≤ t.length) (H : ℝ) (hH : H ≤ 1 / 4) (h0 : nd t 0 = 0)
    (hend : ∀ n < t.length, nd t n ≤ 1) (ht : ∀ n < t.length - 1, nd t n < nd t (n + 1) ∧ nd t (n + 1) - nd t n ≤ H) : ∃ s,
    Scheme.new exFresh freshI (fun _ _ => .ok gaussTwo) idealCsFunction hypO t 2 "legendre" none = .ok s ∧ s.N = t.length - 1 ∧
    (∃ env, (∀ v ∈ s.eq.vals env, v = 0) ∧ s.x.val env 0 0 = 0) ∧
    ∀ env, (∀ v ∈ s.eq.vals env, v = 0) → s.x.val env 0 0 = 0 → ∀ n ≤ s.N,
      |s.x.val env 0 n - Real.sinh (nd t n)| ≤ Real.exp (6912 * nd t n) * (nd t n * (78336 * H ^ 4)) ∧
      |s.q.val env 0 n - (Real.exp (nd t n) - 1)| ≤ Real.exp (6912 * nd t n) * (nd t n * (78336 * H ^ 4)) := by
  obtain ⟨F, pre⟩ := hyp_pre freshI hI t gaussTwo two (by simp [gaussTwo])
  obtain ⟨s, hs⟩ := C26_constructed exFresh freshI _ _ _ _ _ _ _ _ _ _ _ _ false pre
  have b := pre.built hs
  have hN : s.N = t.length - 1 := b.N_eq
  have hM : s.M = 2 := b.M_eq
  obtain ⟨T, hT, A00, A01, A10, A11, b0, b1⟩ := gaussTwo_tableau
  obtain ⟨-, r1, r2⟩ := sqrt_three
  obtain ⟨ix, sol, lq⟩ := hyp_index freshI
  have hf : [exFresh "x", exFresh "K", exFresh "Z", exFresh "u", exFresh "P"].Nodup := by decide
  have hpos : ∀ n ≤ s.N, 0 ≤ nd t n := by
    intro n
    induction n with
    | zero => intro _; exact h0.ge
    | succ n ih => intro hn; exact (ih (by omega)).trans (ht n (by omega)).1.le
  have hα : ∀ j < s.M, ∑ k ∈ Finset.range s.M, |T.A.e [j, k]| ≤ 1 := by
    intro j hj
    rw [hM] at hj ⊢
    rw [Finset.sum_range_succ, Finset.sum_range_one]
    obtain rfl | rfl : j = 0 ∨ j = 1 := by omega
    · rw [A00, A01, abs_of_pos (by norm_num : (0 : ℝ) < 1 / 4)]
      have : |1 / 4 - √3 / 6| ≤ 3 / 4 := by rw [abs_le]; constructor <;> linarith
      linarith
    · rw [A10, A11, abs_of_pos (by norm_num : (0 : ℝ) < 1 / 4), abs_of_pos (by linarith)]
      linarith
  have hβ : ∑ k ∈ Finset.range s.M, |T.b.e [k]| ≤ 1 := by
    rw [hM, Finset.sum_range_succ, Finset.sum_range_one, b0, b1]
    norm_num
  have h01 : ∀ k < gaussTwo.length, nd gaussTwo k ∈ Icc (0 : ℝ) 1 := by
    intro k hk
    change k < 2 at hk
    obtain rfl | rfl : k = 0 ∨ k = 1 := by omega
    · show (3 - √3) / 6 ∈ Icc (0 : ℝ) 1
      constructor <;> linarith
    · show (3 + √3) / 6 ∈ Icc (0 : ℝ) 1
      constructor <;> linarith
  have hth : ContDiff ℝ 1 fun τ : ℝ => Real.sinh τ / Real.cosh τ :=
    Real.contDiff_sinh.div Real.contDiff_cosh fun τ => (Real.cosh_pos τ).ne'
  refine ⟨s, hs, hN, ?_, fun env heq hx n hn => ?_⟩
  · obtain ⟨env, heq, hx, -, -⟩ := C88_exists exFresh freshI _ _ _ _ _ _ _ _ _ _ _ _ false s idealCsFunction_spec pre hs hf 1 1 (1 / 2)
      ix sol (by norm_num) T hT (fun n hn j hj => by
        have h1 := hα j hj
        have h2 := ht n (by omega)
        rw [one_mul, abs_of_pos (by linarith)]
        calc _ ≤ (1 / 2 : ℝ) * 1 := mul_le_mul (by linarith) h1 (Finset.sum_nonneg fun _ _ => abs_nonneg _) (by norm_num)
          _ = 1 / 2 := mul_one _) (fun _ _ _ => 0) (fun h => by cases h) (fun _ => 0)
    exact ⟨env, heq, hx 0⟩
  · obtain ⟨ex, exq⟩ := hyp_exact freshI t (s.u.val env) (fun i => s.p.val env i 0)
    obtain ⟨lin, linq⟩ := hyp_linearized freshI t (s.u.val env) (fun i => s.p.val env i 0)
    have key := C92_quadrature exFresh freshI _ _ _ _ _ _ _ _ _ _ _ _ false s idealCsFunction_spec pre hs hf 1 1 1 1 2 (1 / 2)
      ix lq (by norm_num) (by norm_num) gaussTwo_nodup h01 2 gaussTwo_order (by norm_num) T hT 1 1 H (by linarith) hα hβ
      (fun n hn => ht n (by omega)) (by norm_num) (by linarith) env heq _ _ _ _ _ ex exq 3 0
      (fun n hn => ⟨fun i _ => Real.contDiff_cosh.contDiffOn, fun k _ => Real.contDiff_exp.contDiffOn⟩)
      (fun n hn q _ _ τ hτ => by
        have hτ1 : τ ≤ 1 := hτ.2.trans (hend _ (by omega))
        refine ⟨fun i _ => (cosh_derivs (ht n (by omega)).1 (hpos n hn.le) (hend _ (by omega)) q τ hτ).trans (by norm_num), fun k _ => ?_⟩
        rw [iteratedDerivWithin_eq_iteratedDeriv (uniqueDiffOn_Icc (ht n (by omega)).1) Real.contDiff_exp.contDiffAt hτ,
          iteratedDeriv_eq_iterate, Real.iter_deriv_exp, abs_of_pos (Real.exp_pos _)]
        have := Real.exp_one_lt_d9
        linarith [Real.exp_le_exp.mpr hτ1]) (by norm_num)
      _ _ (1 / 2) 4 (by norm_num) lin linq
      (fun n hn l _ => ⟨fun i _ => hth.contDiffOn, fun k _ => (contDiff_const.add hth).contDiffOn⟩)
      (fun n hn l _ q hq τ hτ => by
        have h1 := tanh_derivs (ht n (by omega)).1 q hq τ hτ
        have h2 : |iteratedDerivWithin q (fun τ => 1 + Real.sinh τ / Real.cosh τ) (Icc (nd t n) (nd t (n + 1))) τ| ≤ 2 := by
          obtain rfl | rfl : q = 0 ∨ q = 1 := by omega
          · rw [iteratedDerivWithin_zero] at h1 ⊢
            refine (abs_add_le _ _).trans ?_
            rw [abs_one]
            linarith
          · rw [iteratedDerivWithin_one] at h1 ⊢
            rw [derivWithin_const_add]
            linarith
        refine ⟨fun i _ => ?_, fun k _ => ?_⟩
        · show ((2 : ℕ) : ℝ) * _ ≤ 4
          push_cast
          linarith
        · show ((2 : ℕ) : ℝ) * _ ≤ 4
          push_cast
          linarith) le_rfl (by
        intro i hi
        obtain rfl : i = 0 := by change i < 1 at hi; omega
        rw [hx, h0]
        simp) n hn
    constructor
    · refine (key.1 0 Nat.one_pos).trans (le_of_eq ?_)
      rw [h0, hM]
      norm_num
    · have := key.2 0 Nat.one_pos
      simp only [h0, Real.exp_zero] at this
      refine this.trans (le_of_eq ?_)
      rw [hM]
      norm_num

end CE
