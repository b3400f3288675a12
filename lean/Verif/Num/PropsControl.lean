import Verif.Num.PropsIndex2
import Verif.Num.PropsContract2
import Verif.Num.PropsAdjoint

/-! # Property C140: optimal controls computed with the collocation scheme -/

open Set

namespace CE

/-- What an optimal control problem decides on: the inputs on the intervals, the parameters and the initial states. -/
structure Decision where
  u : ℕ → ℕ → ℝ
  p : ℕ → ℝ
  x0 : ℕ → ℝ

/-- The decision in an assignment of values to the variables of a scheme. -/
def Scheme.decision (s : Scheme ℝ) (env : Env ℝ) : Decision := ⟨s.u.val env, fun i => s.p.val env i 0, fun i => s.x.val env i 0⟩

/-- A function of the states at the bounds of the intervals, the final quadratures and the decision. -/
abbrev CostFn := (ℕ → ℕ → ℝ) → (ℕ → ℝ) → Decision → ℝ

/-- `φ` changes at most by `Λ δ` when `nx` states at the bounds of `N` intervals and `nq` quadratures change at most by `δ`. -/
def LipschitzCost (nx nq N : ℕ) (Λ : ℝ) (φ : CostFn) : Prop :=
  ∀ X X' q q' w δ, (∀ n ≤ N, ∀ i < nx, |X i n - X' i n| ≤ δ) → (∀ k < nq, |q k - q' k| ≤ δ) → |φ X q w - φ X' q' w| ≤ Λ * δ

/-- The value of a cost function in the discretised problem. -/
def Scheme.cost (s : Scheme ℝ) (φ : CostFn) (env : Env ℝ) : ℝ := φ (s.x.val env) (fun k => s.q.val env k s.N) (s.decision env)

/-- A solution of the collocation equations with a decision in `U` that satisfies the constraints `G ≤ 0`. -/
structure Feasible {ι : Type} (s : Scheme ℝ) (U : Set Decision) (G : ι → CostFn) (env : Env ℝ) : Prop where
  eq : ∀ v ∈ s.eq.vals env, v = 0
  mem : s.decision env ∈ U
  con : ∀ c, s.cost (G c) env ≤ 0

/-- A feasible solution of the least cost. -/
def Optimal {ι : Type} (s : Scheme ℝ) (U : Set Decision) (φ : CostFn) (G : ι → CostFn) (env : Env ℝ) : Prop :=
  Feasible s U G env ∧ ∀ env', Feasible s U G env' → s.cost φ env ≤ s.cost φ env'

/-- For every decision in `U` the model has the solution `y`, `ζ` with derivatives `f` and the integrals `Y` of the quadratures with
derivatives `g`; on every interval the derivatives of order `order` of `f` and `g` are bounded by `B` and `Bq`. -/
structure ExactFamily (d : DaeObj ℝ) (xdot res : MXExpr ℝ) (tdp_fun : Option (ℝ → Mat ℝ)) (t : List ℝ) (order : ℕ) (U : Set Decision)
    (y : Decision → ℕ → ℝ → ℝ) (f ζ : Decision → ℕ → ℕ → ℝ → ℝ) (Y : Decision → ℕ → ℝ → ℝ) (g : Decision → ℕ → ℕ → ℝ → ℝ) (B Bq : ℝ) :
    Prop where
  dae : ∀ w ∈ U, ExactDae d xdot res tdp_fun t w.u w.p (y w) (f w) (ζ w)
  start : ∀ w ∈ U, ∀ i < d.nx, y w i (nd t 0) = w.x0 i
  quad : ∀ w ∈ U, ExactQuadratureZ d xdot tdp_fun t w.u w.p (y w) (ζ w) (Y w) (g w)
  smooth : ∀ w ∈ U, ∀ n < t.length - 1, ∀ i < d.nx, ContDiffOn ℝ order (f w n i) (Icc (nd t n) (nd t (n + 1)))
  bound : ∀ w ∈ U, ∀ n < t.length - 1, ∀ i < d.nx, ∀ τ ∈ Icc (nd t n) (nd t (n + 1)),
    |iteratedDerivWithin order (f w n i) (Icc (nd t n) (nd t (n + 1))) τ| ≤ B
  smoothQ : ∀ w ∈ U, ∀ n < t.length - 1, ∀ k < d.nq, ContDiffOn ℝ order (g w n k) (Icc (nd t n) (nd t (n + 1)))
  boundQ : ∀ w ∈ U, ∀ n < t.length - 1, ∀ k < d.nq, ∀ τ ∈ Icc (nd t n) (nd t (n + 1)),
    |iteratedDerivWithin order (g w n k) (Icc (nd t n) (nd t (n + 1))) τ| ≤ Bq

/-- The value of a cost function for the exact solution. -/
def exactCost (t : List ℝ) (y Y : Decision → ℕ → ℝ → ℝ) (φ : CostFn) (w : Decision) : ℝ :=
  φ (fun i n => y w i (nd t n)) (fun k => Y w k (nd t (t.length - 1)) - Y w k (nd t 0)) w

theorem suboptimal_core {ι : Type} {s : Scheme ℝ} {t : List ℝ} {nx nq : ℕ} {U : Set Decision} {φ : CostFn} {G : ι → CostFn} {Λ E : ℝ}
    {y Y : Decision → ℕ → ℝ → ℝ} (hφ : LipschitzCost nx nq s.N Λ φ) (hG : ∀ c, LipschitzCost nx nq s.N Λ (G c))
    (hex : ∀ w ∈ U, ∃ env, (∀ v ∈ s.eq.vals env, v = 0) ∧ s.decision env = w)
    (herr : ∀ env, (∀ v ∈ s.eq.vals env, v = 0) → s.decision env ∈ U →
      (∀ n ≤ s.N, ∀ i < nx, |s.x.val env i n - y (s.decision env) i (nd t n)| ≤ E) ∧
      ∀ k < nq, |s.q.val env k s.N - (Y (s.decision env) k (nd t (t.length - 1)) - Y (s.decision env) k (nd t 0))| ≤ E)
    (env : Env ℝ) (opt : Optimal s U φ G env) :
    |s.cost φ env - exactCost t y Y φ (s.decision env)| ≤ Λ * E ∧ (∀ c, exactCost t y Y (G c) (s.decision env) ≤ Λ * E) ∧
    ∀ w ∈ U, (∀ c, exactCost t y Y (G c) w ≤ -(Λ * E)) →
      exactCost t y Y φ (s.decision env) ≤ exactCost t y Y φ w + 2 * (Λ * E) := by
  have key : ∀ ψ, LipschitzCost nx nq s.N Λ ψ → ∀ e, (∀ v ∈ s.eq.vals e, v = 0) → s.decision e ∈ U →
      |s.cost ψ e - exactCost t y Y ψ (s.decision e)| ≤ Λ * E := fun ψ hψ e he hm =>
    hψ _ _ _ _ _ E (herr e he hm).1 (herr e he hm).2
  obtain ⟨fe, hmin⟩ := opt
  have h1 := key φ hφ env fe.eq fe.mem
  refine ⟨h1, fun c => ?_, fun w hw hc => ?_⟩
  · have := abs_le.mp (key (G c) (hG c) env fe.eq fe.mem)
    have := fe.con c
    linarith
  · obtain ⟨e, he, rfl⟩ := hex w hw
    have h2 := abs_le.mp (key φ hφ e he hw)
    have h3 := hmin e ⟨he, hw, fun c => by
      have := abs_le.mp (key (G c) (hG c) e he hw)
      have := hc c
      linarith⟩
    have := abs_le.mp h1
    linarith

section
variable (fresh freshI : String → ℕ) (casadiPoints : ℕ → String → Except PyErr (List ℝ))
    (csFunction : List (MXExpr ℝ) → List (MXExpr ℝ) → Except PyErr (CsFn ℝ))
    (dae : DaeObj ℝ) (t : List ℝ) (order : ℕ) (method : String) (tdp_fun : Option (ℝ → Mat ℝ))
    (d : DaeObj ℝ) (xdot res : MXExpr ℝ) (tau : List ℝ) (F : CsFn ℝ) (rep : Bool) (s : Scheme ℝ)

variable {fresh freshI casadiPoints csFunction dae t order method tdp_fun d xdot res tau F rep s} in
/-- An assignment with a given decision. -/
theorem exists_decision (hf : [fresh "x", fresh "K", fresh "Z", fresh "u", fresh "P"].Nodup)
    (b : s.Built fresh t order tdp_fun rep d xdot res tau F) (w : Decision) :
    ∃ env : Env ℝ, (∀ i n, s.u.val env i n = w.u i n) ∧ ∀ i c, s.p.val env i c = w.p i := by
  have huP : fresh "P" ≠ fresh "u" := by
    intro h
    simp [h] at hf
  refine ⟨fun id i n => if id = fresh "u" then w.u i n else w.p i, fun i n => ?_, fun i c => ?_⟩
  · rw [b.u]; simp [MXExpr.sym]
  · rw [b.p]; simp [MXExpr.sym, huP]

/-- **C140** (small steps) An optimal control problem for a model of index one, with costs and constraints that depend Lipschitz
continuously on the states at the bounds of the intervals and on the final quadratures, is solved with the collocation equations in place of
the model. If the steps are small, then with an explicit `E`, a constant times `H` to the number of nodes:  the cost of the computed
solution differs from the cost of the exact solution with the computed decision at most by `Λ E`; this exact solution violates the
constraints at most by `Λ E`; and no decision whose exact solution satisfies the constraints with the margin `Λ E` is better by more than
`2 Λ E`. -/
theorem C140_small_steps (hcs : IsCsFunction csFunction)
    (pre : SchemePre freshI casadiPoints csFunction dae t order method tdp_fun d xdot res tau F)
    (hs : Scheme.new fresh freshI casadiPoints csFunction dae t order method tdp_fun rep = .ok s)
    (hf : [fresh "x", fresh "K", fresh "Z", fresh "u", fresh "P"].Nodup) (L Lz θ : ℝ) (ix : IndexOne d xdot res L Lz)
    (hsol : Solvable d xdot res) (hLz : 0 ≤ Lz) (Lq Lqz : ℝ) (lip : LipschitzQuadZ d Lq Lqz) (hLq : 0 ≤ Lq) (hLqz : 0 ≤ Lqz)
    (hd : tau.Nodup) (h01 : ∀ k < tau.length, nd tau k ∈ Icc (0 : ℝ) 1)
    (T : ButcherTableau ℝ) (hT : butcherTableuForCollocationPoints tau = .ok T) (α β H : ℝ)
    (hα : ∀ j < s.M, ∑ k ∈ Finset.range s.M, |T.A.e [j, k]| ≤ α) (hβ : ∑ k ∈ Finset.range s.M, |T.b.e [k]| ≤ β)
    (ht : ∀ n < s.N, nd t n ≤ nd t (n + 1) ∧ nd t (n + 1) - nd t n ≤ H) (hθ : θ < 1) (hstep : L * (H * α) ≤ θ)
    (U : Set Decision) (y : Decision → ℕ → ℝ → ℝ) (f ζ : Decision → ℕ → ℕ → ℝ → ℝ) (Y : Decision → ℕ → ℝ → ℝ)
    (g : Decision → ℕ → ℕ → ℝ → ℝ) (B Bq : ℝ) (ex : ExactFamily d xdot res tdp_fun t order U y f ζ Y g B Bq) (hB : 0 ≤ B) (hBq : 0 ≤ Bq)
    {ι : Type} (φ : CostFn) (G : ι → CostFn) (Λ : ℝ) (hφ : LipschitzCost d.nx d.nq s.N Λ φ)
    (hG : ∀ c, LipschitzCost d.nx d.nq s.N Λ (G c)) (env : Env ℝ) (opt : Optimal s U φ G env) :
    let D := B * H ^ s.M / ((s.M - 1).factorial : ℝ)
    let Dq := Bq * H ^ s.M / ((s.M - 1).factorial : ℝ)
    let γ := β * L / (1 - θ)
    let T₀ := nd t s.N - nd t 0
    let Ex := Real.exp (γ * T₀) * (T₀ * ((1 + β + γ * H * (1 + α)) * D))
    let Ep := (Ex + H * (1 + α) * D) / (1 - θ)
    let E := Ex + T₀ * (β * ((Lq + Lqz * Lz) * Ep) + (1 + β) * Dq)
    |s.cost φ env - exactCost t y Y φ (s.decision env)| ≤ Λ * E ∧ (∀ c, exactCost t y Y (G c) (s.decision env) ≤ Λ * E) ∧
    ∀ w ∈ U, (∀ c, exactCost t y Y (G c) w ≤ -(Λ * E)) →
      exactCost t y Y φ (s.decision env) ≤ exactCost t y Y φ w + 2 * (Λ * E) := by
  intro D Dq γ T₀ Ex Ep E
  have b := pre.built hs
  have hN := b.N_eq
  have hM := b.M_eq
  have hpos := pre.pos
  have two := pre.two
  have hL := ix.nonneg
  have hα0 : 0 ≤ α := (Finset.sum_nonneg fun _ _ => abs_nonneg _).trans (hα 0 (by omega))
  have hβ0 : 0 ≤ β := (Finset.sum_nonneg fun _ _ => abs_nonneg _).trans hβ
  have hH : 0 ≤ H := by
    have := ht 0 (by omega)
    linarith
  have hθ' : 0 < 1 - θ := by linarith
  have hγ : 0 ≤ γ := by positivity
  have hD : 0 ≤ D := by positivity
  have hDq : 0 ≤ Dq := by positivity
  have hmono : ∀ m ≤ s.N, ∀ n ≤ m, nd t n ≤ nd t m := by
    intro m
    induction m with
    | zero => intro _ n hn; rw [Nat.le_zero.mp hn]
    | succ m ih =>
      intro hm n hn
      rcases hn.eq_or_lt with rfl | hlt
      · exact le_rfl
      · exact (ih (by omega) n (by omega)).trans (ht m (by omega)).1
  have hT0 : 0 ≤ T₀ := by
    have := hmono s.N le_rfl 0 (by omega)
    simp only [T₀]; linarith
  have hEx : 0 ≤ Ex := by positivity
  have hEp : 0 ≤ Ep := by positivity
  have hEq : 0 ≤ T₀ * (β * ((Lq + Lqz * Lz) * Ep) + (1 + β) * Dq) := by positivity
  refine suboptimal_core hφ hG (fun w hw => ?_) (fun e he hm => ?_) env opt
  · obtain ⟨e, h1, h2⟩ := exists_decision hf b w
    obtain ⟨e', k1, k2, k3, k4⟩ := C88_exists fresh freshI casadiPoints csFunction dae t order method tdp_fun d xdot res tau F rep s hcs pre hs hf
      L Lz θ ix hsol hθ T hT (fun n hn j hj => by
        have hh := ht n hn
        rw [abs_of_nonneg (by linarith)]
        refine le_trans (mul_le_mul_of_nonneg_left ?_ hL) hstep
        exact mul_le_mul hh.2 (hα j hj) (Finset.sum_nonneg fun _ _ => abs_nonneg _) hH) e (fun _ c _ i _ => by rw [h2, h2]) w.x0
    refine ⟨e', k1, ?_⟩
    have e1 : s.u.val e' = w.u := by funext i n; rw [k3, h1]
    have e2 : (fun i => s.p.val e' i 0) = w.p := by funext i; rw [k4, h2]
    have e3 : (fun i => s.x.val e' i 0) = w.x0 := by funext i; rw [k2]
    rw [Scheme.decision, e1, e2, e3]
  · set w := s.decision e with hw
    have c := C88_convergence fresh freshI casadiPoints csFunction dae t order method tdp_fun d xdot res tau F rep s hcs pre hs hf L Lz θ ix hd
      h01 T hT α β H hα hβ ht hθ hstep e he (y w) (f w) (ζ w) (ex.dae w hm) B 0
      (fun n hn => by rw [hM]; exact ex.smooth w hm n (by omega)) (fun n hn => by rw [hM]; exact ex.bound w hm n (by omega)) hB le_rfl
      (fun i hi => by rw [ex.start w hm i hi, hw]; simp [Scheme.decision])
    obtain ⟨c1, c2⟩ := c
    have hb : ∀ n ≤ s.N, Real.exp (γ * (nd t n - nd t 0)) * (0 + (nd t n - nd t 0) * ((1 + β + γ * H * (1 + α)) * D)) ≤ Ex := by
      intro n hn
      have h1 := hmono s.N le_rfl n hn
      have h2 := hmono n hn 0 (by omega)
      rw [zero_add]
      have h3 : nd t n - nd t 0 ≤ T₀ := by simp only [T₀]; linarith
      refine mul_le_mul (Real.exp_le_exp.mpr (mul_le_mul_of_nonneg_left h3 hγ)) (mul_le_mul_of_nonneg_right h3 (by positivity)) ?_
        (Real.exp_pos _).le
      exact mul_nonneg (by linarith) (by positivity)
    have hp : ∀ n < s.N, (Real.exp (γ * (nd t n - nd t 0)) * (0 + (nd t n - nd t 0) * ((1 + β + γ * H * (1 + α)) * D)) +
        H * (1 + α) * D) / (1 - θ) ≤ Ep := by
      intro n hn
      have := hb n hn.le
      exact div_le_div_of_nonneg_right (by linarith) hθ'.le
    refine ⟨fun n hn i hi => (c1 n hn i hi).trans ((hb n hn).trans (by simp only [E]; linarith)), fun k hk => ?_⟩
    have cq := C88_quadrature fresh freshI casadiPoints csFunction dae t order method tdp_fun d xdot res tau F rep s hcs pre hs hf Lq Lqz lip hd
      h01 T hT β H hβ ht e he (y w) (ζ w) (Y w) (g w) (ex.quad w hm) Bq Ep (Lz * Ep)
      (fun n hn => by rw [hM]; exact ex.smoothQ w hm n (by omega)) (fun n hn => by rw [hM]; exact ex.boundQ w hm n (by omega))
      (fun n hn j hj i hi => ((c2 n hn j hj).1 i hi).trans (hp n hn))
      (fun n hn j hj i hi => ((c2 n hn j hj).2.2 i hi).trans (mul_le_mul_of_nonneg_left (hp n hn) hLz)) (by positivity) s.N le_rfl k hk
    rw [← hN]
    refine cq.trans ?_
    have : T₀ * (β * (Lq * Ep + Lqz * (Lz * Ep)) + (1 + β) * Dq) = T₀ * (β * ((Lq + Lqz * Lz) * Ep) + (1 + β) * Dq) := by ring
    calc _ = T₀ * (β * ((Lq + Lqz * Lz) * Ep) + (1 + β) * Dq) := this
      _ ≤ E := by simp only [E]; linarith

end

/-- **C140** (any steps) The same for contractive models and Gauss or Radau nodes: for steps of any length, with one constant for all
contractive models of the same size however stiff they are. -/
theorem C140_contractive (tau : List ℝ) (hnode : IsGauss tau ∨ IsRadau tau) (S : ℕ → ℕ → ℝ) (m : ℕ) (hpd : PosDefForm S m) :
    ∃ C ≥ 0, ∀ (fresh freshI : String → ℕ) (casadiPoints : ℕ → String → Except PyErr (List ℝ))
      (csFunction : List (MXExpr ℝ) → List (MXExpr ℝ) → Except PyErr (CsFn ℝ))
      (dae : DaeObj ℝ) (t : List ℝ) (order : ℕ) (method : String) (tdp_fun : Option (ℝ → Mat ℝ))
      (d : DaeObj ℝ) (xdot res : MXExpr ℝ) (F : CsFn ℝ) (rep : Bool) (s : Scheme ℝ), IsCsFunction csFunction →
      SchemePre freshI casadiPoints csFunction dae t order method tdp_fun d xdot res tau F →
      Scheme.new fresh freshI casadiPoints csFunction dae t order method tdp_fun rep = .ok s →
      [fresh "x", fresh "K", fresh "Z", fresh "u", fresh "P"].Nodup → d.nx = m → Contractive d xdot res S → LocLipschitzDae d xdot res →
      ∀ H, (∀ n < s.N, nd t n < nd t (n + 1) ∧ nd t (n + 1) - nd t n ≤ H) →
      ∀ (U : Set Decision) (y : Decision → ℕ → ℝ → ℝ) (f ζ : Decision → ℕ → ℕ → ℝ → ℝ) (Y : Decision → ℕ → ℝ → ℝ)
        (g : Decision → ℕ → ℕ → ℝ → ℝ) (B Bq : ℝ), ExactFamily d xdot res tdp_fun t order U y f ζ Y g B Bq → 0 ≤ B →
      ∀ (ι : Type) (φ : CostFn) (G : ι → CostFn) (Λ : ℝ), LipschitzCost m 0 s.N Λ φ → (∀ c, LipschitzCost m 0 s.N Λ (G c)) →
      ∀ env, Optimal s U φ G env →
      let E := C * (B * (nd t s.N - nd t 0) * H ^ s.M)
      |s.cost φ env - exactCost t y Y φ (s.decision env)| ≤ Λ * E ∧ (∀ c, exactCost t y Y (G c) (s.decision env) ≤ Λ * E) ∧
      ∀ w ∈ U, (∀ c, exactCost t y Y (G c) w ≤ -(Λ * E)) →
        exactCost t y Y φ (s.decision env) ≤ exactCost t y Y φ w + 2 * (Λ * E) := by
  obtain ⟨C, hC, h96⟩ := C96_components tau hnode S m hpd
  refine ⟨C, hC, ?_⟩
  intro fresh freshI casadiPoints csFunction dae t order method tdp_fun d xdot res F rep s hcs pre hs hf hm law lip H ht U y f ζ Y g B Bq ex hB
    ι φ G Λ hφ hG env opt E
  have b := pre.built hs
  have hN := b.N_eq
  have hM := b.M_eq
  have two := pre.two
  subst hm
  have hH : 0 ≤ H := by
    have := ht 0 (by omega)
    linarith
  have hmono : ∀ n ≤ s.N, ∀ j, n + j ≤ s.N → nd t n ≤ nd t (n + j) := by
    intro n hn j
    induction j with
    | zero => intro _; exact le_rfl
    | succ j ih =>
      intro hj
      exact (ih (by omega)).trans (ht (n + j) (by omega)).1.le
  refine suboptimal_core hφ hG (fun w hw => ?_) (fun e he hm => ?_) env opt
  · obtain ⟨e, h1, h2⟩ := exists_decision hf b w
    obtain ⟨e', k1, k2, k3, k4⟩ := C98_exists fresh freshI casadiPoints csFunction dae t order method tdp_fun d xdot res tau F rep s hcs pre hs hf
      lip hnode S hpd law (fun n hn => (ht n hn).1) e (fun _ c _ i _ => by rw [h2, h2]) w.x0
    refine ⟨e', k1, ?_⟩
    have e1 : s.u.val e' = w.u := by funext i n; rw [k3, h1]
    have e2 : (fun i => s.p.val e' i 0) = w.p := by funext i; rw [k4, h2]
    have e3 : (fun i => s.x.val e' i 0) = w.x0 := by funext i; rw [k2]
    rw [Scheme.decision, e1, e2, e3]
  · refine ⟨fun n hn i hi => ?_, fun k hk => absurd hk (by omega)⟩
    set w := s.decision e with hw
    have c := (h96 fresh freshI casadiPoints csFunction dae t order method tdp_fun d xdot res F rep s hcs pre hs hf rfl law H ht e he (y w) (f w)
      (ζ w) (ex.dae w hm) B hB (fun n hn => by rw [hM]; exact ex.smooth w hm n (by omega))
      (fun n hn => by rw [hM]; exact ex.bound w hm n (by omega)) 0 le_rfl
      (fun i hi => by rw [ex.start w hm i hi, hw]; simp [Scheme.decision])).1 n hn i hi
    refine c.trans ?_
    rw [zero_add]
    have := hmono n hn (s.N - n) (by omega)
    rw [Nat.add_sub_cancel' hn] at this
    refine mul_le_mul_of_nonneg_left (mul_le_mul_of_nonneg_right (mul_le_mul_of_nonneg_left ?_ hB) (pow_nonneg hH _)) hC
    linarith

/-! ## Non-vacuity -/

/-- The right-hand side `p - x`. -/
def relaxF : Env ℝ → ℕ → ℝ := fun env _ => env 3 0 0 - env 0 0 0

theorem relax_index (freshI : String → ℕ) :
    IndexOne (odeUD freshI 1 0 1 0 relaxF fun _ _ => 0) (.sym (freshI "xdot") 1) (odeRes freshI 1 relaxF) 1 0 ∧
    Solvable (odeUD freshI 1 0 1 0 relaxF fun _ _ => 0) (.sym (freshI "xdot") 1) (odeRes freshI 1 relaxF) := by
  refine ⟨⟨zero_le_one, fun e e' h h' _ hp _ _ δ hδ hx => ⟨fun i hi => ?_, fun k hk => absurd hk (Nat.not_lt_zero _)⟩⟩, fun ξ u p τ q => ?_⟩
  · have h1 := (ode_residual freshI 1 relaxF e).mp h i hi
    have h2 := (ode_residual freshI 1 relaxF e').mp h' i hi
    have h3 : e 3 0 0 = e' 3 0 0 := hp 0 Nat.one_pos
    have h4 : |e 0 0 0 - e' 0 0 0| ≤ δ := hx 0 Nat.one_pos
    change |e (freshI "xdot") i 0 - e' (freshI "xdot") i 0| ≤ 1 * δ
    rw [h1, h2, relaxF, relaxF, h3, sub_sub_sub_cancel_left, abs_sub_comm, one_mul]
    exact h4
  · refine ⟨fun _ => p 0 - ξ 0, fun _ => 0, fun e h => (ode_residual freshI 1 relaxF e).mpr fun i hi => ?_⟩
    have h1 : e 3 0 0 = p 0 := h.p 0 Nat.one_pos
    have h2 : e 0 0 0 = ξ 0 := h.x 0 Nat.one_pos
    have h3 : e (freshI "xdot") i 0 = p 0 - ξ 0 := h.xdot i hi
    rw [h3, relaxF, h1, h2]

/-- The parameters between -1 and 1, with the initial state 0. -/
def relaxU : Set Decision := {w | w.x0 0 = 0 ∧ |w.p 0| ≤ 1}

theorem relax_family (freshI : String → ℕ) (t : List ℝ) (h0 : nd t 0 = 0) (ht : ∀ n < t.length - 1, 0 ≤ nd t n ∧ nd t n < nd t (n + 1)) :
    ExactFamily (odeUD freshI 1 0 1 0 relaxF fun _ _ => 0) (.sym (freshI "xdot") 1) (odeRes freshI 1 relaxF) none t 1 relaxU
      (fun w _ τ => w.p 0 * (1 - Real.exp (-τ))) (fun w _ _ τ => w.p 0 * Real.exp (-τ)) (fun _ _ _ _ => 0) (fun _ _ _ => 0)
      (fun _ _ _ _ => 0) 1 0 := by
  have hexp : ∀ τ : ℝ, HasDerivAt (fun τ : ℝ => Real.exp (-τ)) (-Real.exp (-τ)) τ := fun τ => by
    simpa using (hasDerivAt_neg τ).exp
  refine ⟨fun w _ => ⟨fun n _ i _ τ _ => ?_, fun n _ τ _ e h => (ode_residual freshI 1 relaxF e).mpr fun i hi => ?_⟩, fun w hw i hi => ?_,
    fun w _ => ⟨fun n _ k hk => absurd hk (Nat.not_lt_zero _), fun n _ τ _ v e h k hk => absurd hk (Nat.not_lt_zero _)⟩,
    fun w _ n _ i _ => ?_, fun w hw n hn i _ τ hτ => ?_, fun w _ n _ k hk => absurd hk (Nat.not_lt_zero _),
    fun w _ n _ k hk => absurd hk (Nat.not_lt_zero _)⟩
  · have := ((hexp τ).const_sub 1).const_mul (w.p 0)
    rw [neg_neg] at this
    exact this.hasDerivWithinAt
  · have h1 : e 3 0 0 = w.p 0 := h.p 0 Nat.one_pos
    have h2 : e 0 0 0 = w.p 0 * (1 - Real.exp (-τ)) := h.x 0 Nat.one_pos
    have h3 : e (freshI "xdot") i 0 = w.p 0 * Real.exp (-τ) := h.xdot i hi
    rw [h3, relaxF, h1, h2]
    ring
  · change i < 1 at hi
    obtain rfl : i = 0 := by omega
    rw [h0, hw.1]
    simp
  · exact (contDiff_const.mul (Real.contDiff_exp.comp contDiff_neg)).contDiffOn
  · have hlt := (ht n hn).2
    rw [iteratedDerivWithin_one, ((hexp τ).const_mul (w.p 0)).hasDerivWithinAt.derivWithin (uniqueDiffOn_Icc hlt τ hτ), abs_mul, abs_neg,
      abs_of_pos (Real.exp_pos _)]
    have h1 : Real.exp (-τ) ≤ 1 := Real.exp_le_one_iff.mpr (by linarith [(ht n hn).1, hτ.1])
    nlinarith [hw.2, Real.exp_pos (-τ), abs_nonneg (w.p 0)]

/-- The distance of the final state from `c`. -/
def missBy (N : ℕ) (c : ℝ) : CostFn := fun X _ _ => |X 0 N - c|

theorem missBy_lipschitz (nq N : ℕ) (c : ℝ) : LipschitzCost 1 nq N 1 (missBy N c) := by
  intro X X' q q' w δ h _
  have := h N le_rfl 0 Nat.one_pos
  rw [one_mul, missBy, missBy]
  refine (abs_abs_sub_abs_le_abs_sub _ _).trans ?_
  rwa [sub_sub_sub_cancel_right]

/-- C140 for `x' = p - x`, `x(0) = 0` and the midpoint rule: the parameter in [-1, 1] that brings the computed final state closest to `c`
brings the exact final state nearly as close to `c` as any other. -/
theorem relax_control (freshI : String → ℕ) (hI : 6 ≤ freshI "xdot") (t : List ℝ) (two : 2 ≤ t.length) (H c : ℝ) (hH : H ≤ 1)
    (h0 : nd t 0 = 0) (ht : ∀ n < t.length - 1, 0 ≤ nd t n ∧ nd t n < nd t (n + 1) ∧ nd t (n + 1) - nd t n ≤ H) : ∃ s,
    Scheme.new exFresh freshI (fun _ _ => .ok [1 / 2]) idealCsFunction (odeUO 1 0 1 0 relaxF fun _ _ => 0) t 1 "legendre" none = .ok s ∧
    ∀ env, Optimal s relaxU (missBy s.N c) (fun c : Empty => c.elim) env →
      let T₀ := nd t s.N
      let p := s.p.val env 0 0
      |s.x.val env 0 s.N - c| ≤ |p * (1 - Real.exp (-T₀)) - c| + Real.exp (2 * T₀) * (T₀ * (5 * H)) ∧
      ∀ q, |q| ≤ 1 → |p * (1 - Real.exp (-T₀)) - c| ≤ |q * (1 - Real.exp (-T₀)) - c| + 2 * (Real.exp (2 * T₀) * (T₀ * (5 * H))) := by
  obtain ⟨F, pre⟩ := odeU_pre freshI hI 1 0 1 0 relaxF (fun _ _ => 0) (fun e e' hx hu hp ht => ⟨fun i hi => by
    simp [relaxF, hx 0 Nat.one_pos, hp 0 Nat.one_pos], fun _ _ => rfl⟩) rfl t [1 / 2] two (by simp)
  have pre : SchemePre freshI (fun _ _ => .ok [1 / 2]) idealCsFunction (odeUO 1 0 1 0 relaxF fun _ _ => 0) t 1 "legendre" none
    (odeUD freshI 1 0 1 0 relaxF fun _ _ => 0) (.sym (freshI "xdot") 1) (odeRes freshI 1 relaxF) [1 / 2] F := pre
  obtain ⟨s, hs⟩ := C26_constructed exFresh freshI _ _ _ _ _ _ _ _ _ _ _ _ false pre
  have b := pre.built hs
  have hN : s.N = t.length - 1 := b.N_eq
  have hM : s.M = 1 := b.M_eq
  obtain ⟨T, hT, hA, hB, -⟩ := C09_butcher_consistent ([1 / 2] : List ℝ) (by simp) (by simp)
  obtain ⟨T', hT', -, -, -, hc, -⟩ := C08_butcher_exact ([1 / 2] : List ℝ) (by simp)
  rw [hT] at hT'
  cases hT'
  have hA0 : T.A.e [0, 0] = 1 / 2 := by
    have := hA 0 (by simp)
    rw [hc 0 (by simp)] at this
    simpa using this
  have hB0 : T.b.e [0] = 1 := by simpa using hB
  obtain ⟨ix, sol⟩ := relax_index freshI
  refine ⟨s, hs, fun env opt => ?_⟩
  intro T₀ p
  have hT0 : 0 ≤ T₀ := by
    have := ht (t.length - 1 - 1) (by omega)
    rw [show t.length - 1 - 1 + 1 = s.N by omega] at this
    simp only [T₀]; linarith
  have hH0 : 0 ≤ H := by
    have := ht 0 (by omega)
    linarith
  have key := C140_small_steps exFresh freshI _ _ _ _ _ _ _ _ _ _ _ _ false s idealCsFunction_spec pre hs (by decide) 1 0 (1 / 2) ix sol le_rfl
    0 0 (fun e e' _ _ _ _ δ η _ _ k hk => absurd hk (Nat.not_lt_zero _)) le_rfl le_rfl (by simp) (fun k hk => by
      simp only [List.length_cons, List.length_nil] at hk
      obtain rfl : k = 0 := by omega
      constructor <;> norm_num [nd]) T hT (1 / 2) 1 H (fun j hj => by
      rw [hM] at hj ⊢
      obtain rfl : j = 0 := by omega
      simp [hA0]) (by rw [hM]; simp [hB0]) (fun n hn => by
      have := ht n (by omega)
      exact ⟨this.2.1.le, this.2.2⟩) (by norm_num) (by linarith) relaxU _ _ _ _ _ 1 0
    (relax_family freshI t h0 fun n hn => ⟨(ht n hn).1, (ht n hn).2.1⟩) zero_le_one le_rfl (missBy s.N c) (fun c : Empty => c.elim) 1
    (missBy_lipschitz _ _ _) (fun c => c.elim) env opt
  simp only [hM, h0, sub_zero, Nat.sub_self, Nat.factorial_zero, Nat.cast_one, div_one, pow_one, one_mul, zero_mul, mul_zero, add_zero,
    Scheme.cost, exactCost, missBy, Scheme.decision] at key
  obtain ⟨k1, -, k3⟩ := key
  have hE : Real.exp (1 / (1 - 1 / 2) * T₀) * (T₀ * ((1 + 1 + 1 / (1 - 1 / 2) * H * (1 + 1 / 2)) * H)) ≤ Real.exp (2 * T₀) * (T₀ * (5 * H)) := by
    rw [show (1 : ℝ) / (1 - 1 / 2) = 2 by norm_num]
    refine mul_le_mul_of_nonneg_left (mul_le_mul_of_nonneg_left ?_ hT0) (Real.exp_pos _).le
    nlinarith
  refine ⟨?_, fun q hq => ?_⟩
  · have := (abs_le.mp (k1.trans hE)).2
    simp only [T₀, p] at this ⊢
    linarith
  · have := k3 ⟨fun _ _ => 0, fun _ => q, fun _ => 0⟩ ⟨rfl, hq⟩ (fun c => c.elim)
    simp only [T₀, p] at this hE ⊢
    linarith

/-- One step from 0 to 1 and the target 1/4: the parameter 3/8 is optimal for the collocation equations, and so nearly optimal for the
model. -/
example (freshI : String → ℕ) (hI : 6 ≤ freshI "xdot") : ∃ s env,
    Scheme.new exFresh freshI (fun _ _ => .ok [1 / 2]) idealCsFunction (odeUO 1 0 1 0 relaxF fun _ _ => 0) [0, 1] 1 "legendre" none = .ok s ∧
    Optimal s relaxU (missBy s.N (1 / 4)) (fun c : Empty => c.elim) env ∧ s.p.val env 0 0 = 3 / 8 ∧
    ∀ q, |q| ≤ 1 → |3 / 8 * (1 - Real.exp (-1)) - 1 / 4| ≤ |q * (1 - Real.exp (-1)) - 1 / 4| + 2 * (Real.exp (2 * 1) * (1 * (5 * 1))) := by
  obtain ⟨s, hs, h⟩ := relax_control freshI hI [0, 1] (by simp) 1 (1 / 4) le_rfl (by simp) (fun n hn => by
    obtain rfl : n = 0 := by simp at hn; omega
    norm_num)
  obtain ⟨F, pre⟩ := odeU_pre freshI hI 1 0 1 0 relaxF (fun _ _ => 0) (fun e e' hx hu hp ht => ⟨fun i hi => by
    simp [relaxF, hx 0 Nat.one_pos, hp 0 Nat.one_pos], fun _ _ => rfl⟩) rfl [0, 1] [1 / 2] (by simp) (by simp)
  have pre : SchemePre freshI (fun _ _ => .ok [1 / 2]) idealCsFunction (odeUO 1 0 1 0 relaxF fun _ _ => 0) [0, 1] 1 "legendre" none
    (odeUD freshI 1 0 1 0 relaxF fun _ _ => 0) (.sym (freshI "xdot") 1) (odeRes freshI 1 relaxF) [1 / 2] F := pre
  have b := pre.built hs
  have hN : s.N = 1 := b.N_eq
  let env : Env ℝ := fun id _ n => if id = 4 then 3 / 8 else if id = 0 then (if n = 0 then 0 else 1 / 4) else 1 / 4
  have heq : ∀ v ∈ s.eq.vals env, v = 0 := by
    refine (odeU_step freshI 1 0 1 0 relaxF (fun _ _ => 0) F pre s hs env (fun e hx _ hp _ i hi => ?_) (fun i hi => ?_)).1
    · have h1 := hx 0 Nat.one_pos
      have h2 := hp 0 Nat.one_pos
      simp only [relaxF, h1, h2, env]
      norm_num
    · simp only [env]
      norm_num
  have hp : s.p.val env 0 0 = 3 / 8 := by
    rw [b.p]
    show env 4 0 0 = 3 / 8
    simp [env]
  have hx : ∀ n, s.x.val env 0 n = if n = 0 then 0 else 1 / 4 := fun n => by
    rw [b.x]
    show env 0 0 n = _
    simp [env]
  have opt : Optimal s relaxU (missBy s.N (1 / 4)) (fun c : Empty => c.elim) env := by
    refine ⟨⟨heq, ⟨?_, ?_⟩, fun c => c.elim⟩, fun env' _ => ?_⟩
    · exact (hx 0).trans (if_pos rfl)
    · change |s.p.val env 0 0| ≤ 1
      rw [hp]
      norm_num [abs_le]
    · have : s.cost (missBy s.N (1 / 4)) env = 0 := by
        simp only [Scheme.cost, missBy, hx, hN]
        norm_num
      rw [this]
      exact abs_nonneg _
  refine ⟨s, env, hs, opt, hp, fun q hq => ?_⟩
  have := (h env opt).2 q hq
  rw [hN, hp] at this
  simpa using this

/-- The right-hand side `p cos(t) - λ (x - p sin(t))`. -/
noncomputable def followF (l : ℝ) : Env ℝ → ℕ → ℝ := fun env _ =>
  env 3 0 0 * Real.cos (env 4 0 0) - l * (env 0 0 0 - env 3 0 0 * Real.sin (env 4 0 0))

/-- One constant for all `λ >= 0`: the parameter in [-1, 1] that brings the computed final state closest to `c` brings the exact final state
`p sin(T)` closest to `c` up to the constant times `T*H^M`. -/
example (tau : List ℝ) (hnode : IsGauss tau ∨ IsRadau tau) (hpos : 0 < tau.length) (freshI : String → ℕ) (hI : 6 ≤ freshI "xdot") :
    ∃ C ≥ 0, ∀ (l c : ℝ) (t : List ℝ) (H : ℝ), 0 ≤ l → 2 ≤ t.length → nd t 0 = 0 →
      (∀ n < t.length - 1, nd t n < nd t (n + 1) ∧ nd t (n + 1) - nd t n ≤ H) → ∃ s,
      Scheme.new exFresh freshI (fun _ _ => .ok tau) idealCsFunction (odeUO 1 0 1 0 (followF l) fun _ _ => 0) t tau.length "legendre" none =
        .ok s ∧
      ∀ env, Optimal s relaxU (missBy s.N c) (fun c : Empty => c.elim) env → ∀ q, |q| ≤ 1 →
        |s.p.val env 0 0 * Real.sin (nd t s.N) - c| ≤ |q * Real.sin (nd t s.N) - c| + 2 * (C * (nd t s.N * H ^ tau.length)) := by
  have hq : PosDefForm (fun _ _ => 1) 1 := by
    rintro v ⟨i, hi, hv⟩
    obtain rfl : i = 0 := by omega
    show 0 < ∑ i ∈ Finset.range 1, ∑ j ∈ Finset.range 1, _
    simp only [Finset.sum_range_one, one_mul]
    exact mul_self_pos.mpr hv
  obtain ⟨C, hC, key⟩ := C140_contractive tau hnode (fun _ _ => 1) 1 hq
  refine ⟨C, hC, fun l c t H hl two h0 ht => ?_⟩
  obtain ⟨F, pre⟩ := odeU_pre freshI hI 1 0 1 0 (followF l) (fun _ _ => 0) (fun e e' hx hu hp ht => ⟨fun i hi => by
    simp [followF, hx 0 Nat.one_pos, hp 0 Nat.one_pos, ht], fun _ _ => rfl⟩) rfl t tau two hpos
  obtain ⟨s, hs⟩ := C26_constructed exFresh freshI _ _ _ _ _ _ _ _ _ _ _ _ false pre
  have b := pre.built hs
  have hN : s.N = t.length - 1 := b.N_eq
  have hM : s.M = tau.length := b.M_eq
  have hz := fun e => ode_residual freshI 1 (followF l) e
  refine ⟨s, hs, fun env opt q hq => ?_⟩
  have hcos : ∀ (w : Decision) n, ContDiff ℝ n (fun τ => w.p 0 * Real.cos τ) := fun w n => contDiff_const.mul Real.contDiff_cos
  have k := (key exFresh freshI _ _ _ _ _ _ _ _ _ _ _ false s idealCsFunction_spec pre hs (by decide) rfl
    (fun e e' h h' _ hp ht' _ => by
      have h1 := (hz e).mp h 0 Nat.one_pos
      have h2 := (hz e').mp h' 0 Nat.one_pos
      have h3 : e 3 0 0 = e' 3 0 0 := hp 0 Nat.one_pos
      have h4 : e 4 0 0 = e' 4 0 0 := ht'
      show ∑ i ∈ Finset.range 1, ∑ j ∈ Finset.range 1, _ ≤ _
      simp only [Finset.sum_range_one, one_mul]
      show (e (freshI "xdot") 0 0 - e' (freshI "xdot") 0 0) * (e 0 0 0 - e' 0 0 0) +
        (e 0 0 0 - e' 0 0 0) * (e (freshI "xdot") 0 0 - e' (freshI "xdot") 0 0) ≤ 0
      rw [h1, h2, followF, followF, h3, h4]
      nlinarith [mul_nonneg hl (sq_nonneg (e 0 0 0 - e' 0 0 0))])
    ⟨fun ξ u p τ r => ⟨fun _ => p 0 * Real.cos τ - l * (ξ 0 - p 0 * Real.sin τ), fun _ => 0, fun e h => (hz e).mpr fun i hi => by
      have h1 : e (freshI "xdot") i 0 = _ := h.xdot i hi
      have h2 : e 0 0 0 = _ := h.x 0 Nat.one_pos
      have h3 : e 4 0 0 = _ := h.t
      have h4 : e 3 0 0 = _ := h.p 0 Nat.one_pos
      rw [h1, followF, h2, h3, h4]⟩, fun e₀ R => ⟨l, fun e e' r r' h h' _ δ _ hδ => ⟨fun i hi => by
        have h1 := (hz e).mp r i hi
        have h2 := (hz e').mp r' i hi
        have h3 : e 4 0 0 = e' 4 0 0 := (h.symm.trans h').t
        have h4 : e 3 0 0 = e' 3 0 0 := (h.symm.trans h').p 0 Nat.one_pos
        have hx : |e 0 0 0 - e' 0 0 0| ≤ δ := hδ 0 Nat.one_pos
        show |e (freshI "xdot") i 0 - e' (freshI "xdot") i 0| ≤ _
        rw [h1, h2, followF, followF, h3, h4, show ∀ a b c s : ℝ, c - l * (a - s) - (c - l * (b - s)) = -(l * (a - b)) from
          fun a b c s => by ring, abs_neg, abs_mul, abs_of_nonneg hl]
        exact mul_le_mul_of_nonneg_left hx hl, fun k hk => absurd hk (Nat.not_lt_zero _)⟩⟩⟩
    H (fun n hn => ht n (by omega)) relaxU (fun w _ τ => w.p 0 * Real.sin τ) (fun w _ _ τ => w.p 0 * Real.cos τ) (fun _ _ _ _ => 0)
    (fun _ _ _ => 0) (fun _ _ _ _ => 0) 1 0
    ⟨fun w _ => ⟨fun n _ i _ τ _ => ((Real.hasDerivAt_sin τ).const_mul (w.p 0)).hasDerivWithinAt, fun n _ τ _ e h => (hz e).mpr fun i hi => by
        have h1 : e (freshI "xdot") i 0 = _ := h.xdot i hi
        have h2 : e 0 0 0 = _ := h.x 0 Nat.one_pos
        have h3 : e 4 0 0 = _ := h.t
        have h4 : e 3 0 0 = _ := h.p 0 Nat.one_pos
        rw [h1, followF, h2, h3, h4]
        ring⟩, fun w hw i hi => by
        change i < 1 at hi
        obtain rfl : i = 0 := by omega
        rw [h0, hw.1]
        simp, fun w _ => ⟨fun n _ k hk => absurd hk (Nat.not_lt_zero _), fun n _ τ _ v e h k hk => absurd hk (Nat.not_lt_zero _)⟩,
      fun w _ n _ i _ => (hcos w _).contDiffOn, fun w hw n hn i _ τ hτ => by
        rw [iteratedDerivWithin_eq_iteratedDeriv (uniqueDiffOn_Icc (ht n hn).1) (hcos w _).contDiffAt hτ,
          iteratedDeriv_const_mul_field, abs_mul]
        have h1 := (abs_iteratedDeriv_trig tau.length τ).2
        nlinarith [hw.2, abs_nonneg (w.p 0), abs_nonneg (iteratedDeriv tau.length Real.cos τ)],
      fun w _ n _ k hk => absurd hk (Nat.not_lt_zero _), fun w _ n _ k hk => absurd hk (Nat.not_lt_zero _)⟩ zero_le_one Empty
    (missBy s.N c) (fun c : Empty => c.elim) 1 (missBy_lipschitz _ _ _) (fun c => c.elim) env opt).2.2 ⟨fun _ _ => 0, fun _ => q, fun _ => 0⟩
    ⟨rfl, hq⟩ (fun c => c.elim)
  simp only [exactCost, missBy, Scheme.decision, h0, sub_zero, one_mul, hM] at k
  exact k

end CE
