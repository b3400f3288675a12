import Verif.Num.PropsSens
import Mathlib.LinearAlgebra.FiniteDimensional.Lemmas
import Mathlib.LinearAlgebra.Dimension.Constructions

/-!
# Property C132, continued: existence of the tangent solution

The equations of a tangent model are linear in the derivatives.  For a regular model and small steps the collocation equations of the
tangent model have a solution, so that the solution of the collocation equations is differentiable in the data; nothing is assumed
about the tangent scheme.
-/

open Polynomial Filter Topology Asymptotics Set

namespace CE

/-- The assignment `e'` of the tangent model extends the assignment `e` of the model: the first halves of its values are those of
`e`, time and time-dependent parameters are the same. -/
structure FirstHalf (d d' : DaeObj ℝ) (xdot xdot' : MXExpr ℝ) (tdp_fun : Option (ℝ → Mat ℝ)) (e e' : Env ℝ) : Prop where
  xdot : ∀ i < d.nx, xdot'.val e' i 0 = xdot.val e i 0
  x : ∀ i < d.nx, d'.x.val e' i 0 = d.x.val e i 0
  z : ∀ i < d.nz, d'.z.val e' i 0 = d.z.val e i 0
  u : ∀ i < d.nu, d'.u.val e' i 0 = d.u.val e i 0
  p : ∀ i < d.np, d'.p.val e' i 0 = d.p.val e i 0
  t : d.t.val e 0 0 = d'.t.val e' 0 0
  tdp : ∀ f, tdp_fun = some f → ∀ i < d.tdp.rows, ∀ j < d.tdp.cols, d.tdp.val e i j = (f (d'.t.val e' 0 0)).e i j
  tdp' : ∀ f, tdp_fun = some f → ∀ i < d'.tdp.rows, ∀ j < d'.tdp.cols, d'.tdp.val e' i j = (f (d'.t.val e' 0 0)).e i j

/-- A tangent model with linear equations: where the residual of the model vanishes, the residual of the tangent model vanishes if
and only if the derivatives satisfy one linear equation for every equation of the model. -/
structure LinearTangent (d d' : DaeObj ℝ) (xdot xdot' res res' : MXExpr ℝ) (tdp_fun : Option (ℝ → Mat ℝ)) : Prop
    extends TangentEquations d d' xdot xdot' res res' tdp_fun where
  linear : ∀ e, ResidualZero res e → ∃ a b c g q : ℕ → ℕ → ℝ, ∀ e', FirstHalf d d' xdot xdot' tdp_fun e e' →
    (ResidualZero res' e' ↔ ∀ i < res.rows, ∑ k ∈ Finset.range d.nx, a i k * xdot'.val e' (d.nx + k) 0 +
      ∑ k ∈ Finset.range d.nx, b i k * d'.x.val e' (d.nx + k) 0 + ∑ k ∈ Finset.range d.nz, c i k * d'.z.val e' (d.nz + k) 0 +
      (∑ k ∈ Finset.range d.nu, g i k * d'.u.val e' (d.nu + k) 0 + ∑ k ∈ Finset.range d.np, q i k * d'.p.val e' (d.np + k) 0) = 0)

/-- A linear system with as many equations as unknowns and at most one solution has a solution; the unknowns are three matrices. -/
theorem linear_exists (nx nz N C : ℕ)
    (coll cont : ℕ → ℕ → ((ℕ → ℕ → ℝ) × (ℕ → ℕ → ℝ) × (ℕ → ℕ → ℝ)) →ₗ[ℝ] ℝ)
    (inj : ∀ w : (ℕ → ℕ → ℝ) × (ℕ → ℕ → ℝ) × (ℕ → ℕ → ℝ), (∀ i < nx + nz, ∀ c < C, coll i c w = 0) →
      (∀ i < nx, ∀ n < N, cont i n w = 0) → (∀ i < nx, w.1 i 0 = 0) →
      (∀ i < nx, ∀ n < N + 1, w.1 i n = 0) ∧ (∀ i < nx, ∀ c < C, w.2.1 i c = 0) ∧ ∀ i < nz, ∀ c < C, w.2.2 i c = 0)
    (r : ℕ → ℕ → ℝ) (x₀ : ℕ → ℝ) : ∃ w, (∀ i < nx + nz, ∀ c < C, coll i c w = r i c) ∧ (∀ i < nx, ∀ n < N, cont i n w = 0) ∧
      ∀ i < nx, w.1 i 0 = x₀ i := by
  classical
  let ext : ((Fin nx × Fin (N + 1)) ⊕ (Fin nx × Fin C) ⊕ (Fin nz × Fin C) → ℝ) →ₗ[ℝ]
      ((ℕ → ℕ → ℝ) × (ℕ → ℕ → ℝ) × (ℕ → ℕ → ℝ)) :=
    { toFun := fun v => (fun i n => if h : i < nx ∧ n < N + 1 then v (.inl (⟨i, h.1⟩, ⟨n, h.2⟩)) else 0,
        fun i c => if h : i < nx ∧ c < C then v (.inr (.inl (⟨i, h.1⟩, ⟨c, h.2⟩))) else 0,
        fun i c => if h : i < nz ∧ c < C then v (.inr (.inr (⟨i, h.1⟩, ⟨c, h.2⟩))) else 0)
      map_add' := fun v w => by
        refine Prod.ext ?_ (Prod.ext ?_ ?_) <;> funext i c <;> simp only [Prod.fst_add, Prod.snd_add, Pi.add_apply] <;> split_ifs <;>
          simp
      map_smul' := fun a v => by
        refine Prod.ext ?_ (Prod.ext ?_ ?_) <;> funext i c <;>
          simp only [Prod.smul_fst, Prod.smul_snd, Pi.smul_apply, RingHom.id_apply] <;> split_ifs <;> simp }
  let Φ : ((Fin nx × Fin (N + 1)) ⊕ (Fin nx × Fin C) ⊕ (Fin nz × Fin C) → ℝ) →ₗ[ℝ]
      ((Fin (nx + nz) × Fin C) ⊕ (Fin nx × Fin N) ⊕ Fin nx → ℝ) :=
    { toFun := fun v => Sum.elim (fun ic => coll ic.1 ic.2 (ext v)) (Sum.elim (fun ic => cont ic.1 ic.2 (ext v)) fun i => (ext v).1 i 0)
      map_add' := fun v w => by
        funext k
        rcases k with k | k | k <;> simp [map_add]
      map_smul' := fun a v => by
        funext k
        rcases k with k | k | k <;> simp [map_smul] }
  have hinj : Function.Injective Φ := by
    rw [← LinearMap.ker_eq_bot, LinearMap.ker_eq_bot']
    intro v hv
    obtain ⟨h1, h2, h3⟩ := inj (ext v) (fun i hi c hc => congrFun hv (.inl (⟨i, hi⟩, ⟨c, hc⟩)))
      (fun i hi n hn => congrFun hv (.inr (.inl (⟨i, hi⟩, ⟨n, hn⟩)))) (fun i hi => congrFun hv (.inr (.inr ⟨i, hi⟩)))
    funext k
    rcases k with ⟨i, n⟩ | ⟨i, c⟩ | ⟨i, c⟩
    · simpa [ext, Nat.lt_succ_iff.mp n.2] using h1 i i.2 n n.2
    · simpa [ext] using h2 i i.2 c c.2
    · simpa [ext] using h3 i i.2 c c.2
  have hsurj := (LinearMap.injective_iff_surjective_of_finrank_eq_finrank (f := Φ) (by
    simp only [Module.finrank_fintype_fun_eq_card, Fintype.card_sum, Fintype.card_prod, Fintype.card_fin]
    ring)).mp hinj
  obtain ⟨v, hv⟩ := hsurj (Sum.elim (fun ic => r ic.1 ic.2) (Sum.elim (fun _ => 0) fun i => x₀ i))
  exact ⟨ext v, fun i hi c hc => congrFun hv (.inl (⟨i, hi⟩, ⟨c, hc⟩)), fun i hi n hn => congrFun hv (.inr (.inl (⟨i, hi⟩, ⟨n, hn⟩))),
    fun i hi => congrFun hv (.inr (.inr ⟨i, hi⟩))⟩

section
variable (fresh fresh' freshI freshI' : String → ℕ) (casadiPoints : ℕ → String → Except PyErr (List ℝ))
    (csFunction : List (MXExpr ℝ) → List (MXExpr ℝ) → Except PyErr (CsFn ℝ))
    (dae dae' : DaeObj ℝ) (t : List ℝ) (order : ℕ) (method : String) (tdp_fun : Option (ℝ → Mat ℝ))
    (d d' : DaeObj ℝ) (xdot res xdot' res' : MXExpr ℝ) (tau : List ℝ) (F F' : CsFn ℝ) (rep : Bool) (s s' : Scheme ℝ)

/-- The assignment of the tangent scheme with the values of `env` and the derivatives `w`, `u`, `p`. -/
def tanEnv (nx nz nu np : ℕ) (env : Env ℝ) (w : (ℕ → ℕ → ℝ) × (ℕ → ℕ → ℝ) × (ℕ → ℕ → ℝ)) (u p : ℕ → ℕ → ℝ) : Env ℝ := fun id i j =>
  if id = fresh' "x" then if i < nx then env (fresh "x") i j else w.1 (i - nx) j
  else if id = fresh' "K" then if i < nx then env (fresh "K") i j else w.2.1 (i - nx) j
  else if id = fresh' "Z" then if i < nz then env (fresh "Z") i j else w.2.2 (i - nz) j
  else if id = fresh' "u" then if i < nu then env (fresh "u") i j else u (i - nu) j
  else if i < np then env (fresh "P") i j else p (i - np) j

/-- The derivative of the state at a collocation point. -/
noncomputable def tanX (w : (ℕ → ℕ → ℝ) × (ℕ → ℕ → ℝ) × (ℕ → ℕ → ℝ)) (i c : ℕ) : ℝ :=
  w.1 i (c / order) + (nd t (c / order + 1) - nd t (c / order)) *
    ∑ k ∈ Finset.range order, w.2.1 i (c / order * order + k) * wA tau (c % order) k

/-- The derivative of the continuity equation. -/
noncomputable def tanCont (w : (ℕ → ℕ → ℝ) × (ℕ → ℕ → ℝ) × (ℕ → ℕ → ℝ)) (i n : ℕ) : ℝ :=
  w.1 i n + (nd t (n + 1) - nd t n) * ∑ k ∈ Finset.range order, w.2.1 i (n * order + k) * wb tau k - w.1 i (n + 1)

/-- The equations of the tangent scheme, where the first half of the values solves the equations of the scheme, are linear equations
for the second half. -/
theorem tanEnv_eq (hcs : IsCsFunction csFunction)
    (pre : SchemePre freshI casadiPoints csFunction dae t order method tdp_fun d xdot res tau F)
    (pre' : SchemePre freshI' casadiPoints csFunction dae' t order method tdp_fun d' xdot' res' tau F')
    (hs : Scheme.new fresh freshI casadiPoints csFunction dae t order method tdp_fun rep = .ok s)
    (hs' : Scheme.new fresh' freshI' casadiPoints csFunction dae' t order method tdp_fun rep = .ok s')
    (hfr' : DistinctSyms fresh') (hT : LinearTangent d d' xdot xdot' res res' tdp_fun) (env : Env ℝ)
    (h : ∀ v ∈ s.eq.vals env, v = 0) : ∃ a b c g q : ℕ → ℕ → ℕ → ℝ, ∀ w u p,
    (∀ v ∈ s'.eq.vals (tanEnv fresh fresh' d.nx d.nz d.nu d.np env w u p), v = 0) ↔
    (∀ l < (t.length - 1) * order, ∀ i < res.rows, ∑ k ∈ Finset.range d.nx, a l i k * w.2.1 k l +
      ∑ k ∈ Finset.range d.nx, b l i k * tanX t order tau w k l + ∑ k ∈ Finset.range d.nz, c l i k * w.2.2 k l +
      (∑ k ∈ Finset.range d.nu, g l i k * u k (l / order) + ∑ k ∈ Finset.range d.np, q l i k * p k (if rep then l else 0)) = 0) ∧
    (∀ n < t.length - 1, ∀ i < d.nx, tanCont t order tau w i n = 0) ∧
    (rep = true → ∀ l < (t.length - 1) * order, ∀ i < d.np, p i l = p i 0) := by
  have b := pre.built hs
  have b' := pre'.built hs'
  have hpos := pre.pos
  obtain ⟨r, hc, hp⟩ := (Scheme.eq_zero_iff pre b env).mp h
  have hsplit : ∀ c < (t.length - 1) * order, c / order < t.length - 1 ∧ c % order < order ∧ c = c / order * order + c % order := by
    intro c hc
    refine ⟨Nat.div_lt_of_lt_mul (by rwa [Nat.mul_comm]), Nat.mod_lt _ hpos, ?_⟩
    rw [Nat.mul_comm]; exact (Nat.div_add_mod c order).symm
  have hres0 : ∀ (e : Env ℝ), ResidualZero res e ↔ ∀ i < res.rows, res.val e i 0 = 0 := fun e =>
    ⟨fun h i hi => h i hi 0 (by rw [pre.wf.res_cols]; exact Nat.one_pos), fun h i hi j hj => by
      rw [pre.wf.res_cols] at hj
      obtain rfl : j = 0 := by omega
      exact h i hi⟩
  have hres0' : ∀ (e : Env ℝ), ResidualZero res' e ↔ ∀ i < res'.rows, res'.val e i 0 = 0 := fun e =>
    ⟨fun h i hi => h i hi 0 (by rw [pre'.wf.res_cols]; exact Nat.one_pos), fun h i hi j hj => by
      rw [pre'.wf.res_cols] at hj
      obtain rfl : j = 0 := by omega
      exact h i hi⟩
  have hpt : ∀ l, ∃ e, l < (t.length - 1) * order → AtPoint s d xdot tdp_fun rep env e l := fun l => by
    by_cases hl : l < (t.length - 1) * order
    · obtain ⟨e, he⟩ := exists_atPoint hcs pre b.toCore env hl
      exact ⟨e, fun _ => he⟩
    · exact ⟨env, fun h => absurd h hl⟩
  choose e hat using hpt
  have hlin : ∀ l, ∃ a b c g q : ℕ → ℕ → ℝ, l < (t.length - 1) * order → ∀ e', FirstHalf d d' xdot xdot' tdp_fun (e l) e' →
      (ResidualZero res' e' ↔ ∀ i < res.rows, ∑ k ∈ Finset.range d.nx, a i k * xdot'.val e' (d.nx + k) 0 +
      ∑ k ∈ Finset.range d.nx, b i k * d'.x.val e' (d.nx + k) 0 + ∑ k ∈ Finset.range d.nz, c i k * d'.z.val e' (d.nz + k) 0 +
      (∑ k ∈ Finset.range d.nu, g i k * d'.u.val e' (d.nu + k) 0 + ∑ k ∈ Finset.range d.np, q i k * d'.p.val e' (d.np + k) 0) = 0) := by
    intro l
    by_cases hl : l < (t.length - 1) * order
    · obtain ⟨a, b1, c, g, q, h1⟩ := hT.linear (e l) ((hres0 _).mpr fun i hi => by
        rw [← ((hat l hl).out hcs pre b.toCore hl).1 i hi]
        exact r l hl i hi)
      exact ⟨a, b1, c, g, q, fun _ => h1⟩
    · exact ⟨fun _ _ => 0, fun _ _ => 0, fun _ _ => 0, fun _ _ => 0, fun _ _ => 0, fun h => absurd h hl⟩
  choose a b1 c g q hlin using hlin
  refine ⟨a, b1, c, g, q, fun w u p => ?_⟩
  set env' := tanEnv fresh fresh' d.nx d.nz d.nu d.np env w u p with henv
  have ex : ∀ i n, env' (fresh' "x") i n = if i < d.nx then env (fresh "x") i n else w.1 (i - d.nx) n := fun i n => by
    rw [henv]; simp only [tanEnv, if_true]
  have ek : ∀ i n, env' (fresh' "K") i n = if i < d.nx then env (fresh "K") i n else w.2.1 (i - d.nx) n := fun i n => by
    rw [henv]; simp only [tanEnv, if_true, if_neg hfr'.xK.symm]
  have ez : ∀ i n, env' (fresh' "Z") i n = if i < d.nz then env (fresh "Z") i n else w.2.2 (i - d.nz) n := fun i n => by
    rw [henv]; simp only [tanEnv, if_true, if_neg hfr'.xZ.symm, if_neg hfr'.KZ.symm]
  have eu : ∀ i n, env' (fresh' "u") i n = if i < d.nu then env (fresh "u") i n else u (i - d.nu) n := fun i n => by
    rw [henv]; simp only [tanEnv, if_true, if_neg hfr'.xu.symm, if_neg hfr'.Ku.symm, if_neg hfr'.Zu.symm]
  have ep : ∀ i n, env' (fresh' "P") i n = if i < d.np then env (fresh "P") i n else p (i - d.np) n := fun i n => by
    rw [henv]; simp only [tanEnv, if_neg hfr'.xP.symm, if_neg hfr'.KP.symm, if_neg hfr'.ZP.symm, if_neg hfr'.uP.symm]
  have hX1 : ∀ l < (t.length - 1) * order, ∀ i < d.nx, s'.X.val env' i l = s.X.val env i l := by
    intro l hl i hi
    obtain ⟨h1, h2, h3⟩ := hsplit l hl
    rw [h3, b'.X _ _ _ _ h1 h2, b.X _ _ _ _ h1 h2]
    simp only [ex, ek, if_pos hi]
  have hX2 : ∀ l < (t.length - 1) * order, ∀ i, s'.X.val env' (d.nx + i) l = tanX t order tau w i l := by
    intro l hl i
    obtain ⟨h1, h2, h3⟩ := hsplit l hl
    conv_lhs => rw [h3]
    rw [b'.X _ _ _ _ h1 h2]
    simp only [ex, ek, if_neg (show ¬ d.nx + i < d.nx by omega), Nat.add_sub_cancel_left]
    rfl
  have hc1 : ∀ n < t.length - 1, ∀ i < d.nx, s'.eqContinuity.val env' i n = 0 := by
    intro n hn i hi
    rw [← hc n hn i hi, b'.cont _ _ _ hn, b.cont _ _ _ hn]
    simp only [ex, ek, if_pos hi]
  have hc2 : ∀ n < t.length - 1, ∀ i, s'.eqContinuity.val env' (d.nx + i) n = tanCont t order tau w i n := by
    intro n hn i
    rw [b'.cont _ _ _ hn]
    simp only [ex, ek, if_neg (show ¬ d.nx + i < d.nx by omega), Nat.add_sub_cancel_left]
    rfl
  have hp' : ∀ i l, s'.p.val env' i l = if i < d.np then env (fresh "P") i l else p (i - d.np) l := fun i l => by
    rw [b'.p]; exact ep i l
  have hp0 : ∀ i l, s.p.val env i l = env (fresh "P") i l := fun i l => by rw [b.p]; rfl
  have hnp : d.np = d.p.rows := by simp [DaeObj.np, MXExpr.numel, pre.p]
  have hnp' : d'.np = d'.p.rows := by simp [DaeObj.np, MXExpr.numel, pre'.p]
  have hnx' := pre'.wf.nx
  have hnz' := pre'.wf.nz
  have hnu' := pre'.wf.nu
  rw [hT.nx] at hnx'
  rw [hT.nz] at hnz'
  rw [hT.nu] at hnu'
  rw [hT.np] at hnp'
  have hnx := pre.wf.nx
  have hnz := pre.wf.nz
  have hnu := pre.wf.nu
  rw [Scheme.eq_zero_iff pre' b' env']
  refine and_congr ?_ (and_congr ?_ ?_)
  · refine forall_congr' fun l => imp_congr_right fun hl => ?_
    obtain ⟨h1, h2, h3⟩ := hsplit l hl
    have htc : nd s.tc l = nd s'.tc l := by rw [h3, b.tc _ _ h1 h2, b'.tc _ _ h1 h2]
    obtain ⟨e', hat'⟩ := exists_atPoint hcs pre' b'.toCore env' hl
    have o' := hat'.out hcs pre' b'.toCore hl
    have v := (hat l hl).vals pre b.toCore
    have v' := hat'.vals pre' b'.toCore
    have hfh : FirstHalf d d' xdot xdot' tdp_fun (e l) e' := by
      refine ⟨fun i hi => ?_, fun i hi => ?_, fun i hi => ?_, fun i hi => ?_, fun i hi => ?_, ?_, ?_, ?_⟩
      · rw [v'.xdot i (by omega), v.xdot i (by omega), ek, if_pos hi]
      · rw [v'.x i (by omega), v.x i (by omega), hX1 l hl i hi]
      · rw [v'.z i (by omega), v.z i (by omega), ez, if_pos hi]
      · rw [v'.u i (by omega), v.u i (by omega), eu, if_pos hi]
      · rw [v'.p i (by omega), v.p i (by omega), ep, if_pos hi]
      · rw [(hat l hl).t, hat'.t, htc]
      · intro f hf i hi j hj
        rw [(hat l hl).tdp f hf i hi j hj, hat'.t, htc]
      · intro f hf i hi j hj
        rw [hat'.tdp f hf i hi j hj, hat'.t]
    have e1 : (∀ i < res'.rows, s'.eqCollocation.val env' i l = 0) ↔ ResidualZero res' e' := by
      rw [hres0']
      exact forall_congr' fun i => imp_congr_right fun hi => by rw [o'.1 i hi]
    rw [e1, hlin l hl e' hfh]
    refine forall_congr' fun i => imp_congr_right fun _ => ?_
    have s1 : ∑ k ∈ Finset.range d.nx, a l i k * xdot'.val e' (d.nx + k) 0 = ∑ k ∈ Finset.range d.nx, a l i k * w.2.1 k l :=
      Finset.sum_congr rfl fun k hk => by
        rw [Finset.mem_range] at hk
        rw [v'.xdot _ (by omega), ek, if_neg (by omega), Nat.add_sub_cancel_left]
    have s2 : ∑ k ∈ Finset.range d.nx, b1 l i k * d'.x.val e' (d.nx + k) 0 = ∑ k ∈ Finset.range d.nx, b1 l i k * tanX t order tau w k l :=
      Finset.sum_congr rfl fun k hk => by
        rw [Finset.mem_range] at hk
        rw [v'.x _ (by omega), hX2 l hl]
    have s3 : ∑ k ∈ Finset.range d.nz, c l i k * d'.z.val e' (d.nz + k) 0 = ∑ k ∈ Finset.range d.nz, c l i k * w.2.2 k l :=
      Finset.sum_congr rfl fun k hk => by
        rw [Finset.mem_range] at hk
        rw [v'.z _ (by omega), ez, if_neg (by omega), Nat.add_sub_cancel_left]
    have s4 : ∑ k ∈ Finset.range d.nu, g l i k * d'.u.val e' (d.nu + k) 0 = ∑ k ∈ Finset.range d.nu, g l i k * u k (l / order) :=
      Finset.sum_congr rfl fun k hk => by
        rw [Finset.mem_range] at hk
        rw [v'.u _ (by omega), eu, if_neg (by omega), Nat.add_sub_cancel_left]
    have s5 : ∑ k ∈ Finset.range d.np, q l i k * d'.p.val e' (d.np + k) 0 =
        ∑ k ∈ Finset.range d.np, q l i k * p k (if rep then l else 0) :=
      Finset.sum_congr rfl fun k hk => by
        rw [Finset.mem_range] at hk
        rw [v'.p _ (by omega), ep, if_neg (by omega), Nat.add_sub_cancel_left]
    rw [s1, s2, s3, s4, s5]
  · refine forall_congr' fun n => imp_congr_right fun hn => ⟨fun h1 i hi => ?_, fun h1 i hi => ?_⟩
    · rw [← hc2 n hn i]
      exact h1 _ (by rw [hT.nx]; omega)
    · rw [hT.nx] at hi
      rcases Nat.lt_or_ge i d.nx with h2 | h2
      · exact hc1 n hn i h2
      · obtain ⟨k, rfl⟩ := Nat.exists_eq_add_of_le h2
        rw [hc2 n hn k]
        exact h1 k (by omega)
  · refine imp_congr_right fun hrep => forall_congr' fun l => imp_congr_right fun hl => ⟨fun h1 i hi => ?_, fun h1 i hi => ?_⟩
    · have := h1 (d.np + i) (by rw [hT.np]; omega)
      rw [hp', hp', if_neg (by omega), if_neg (by omega), Nat.add_sub_cancel_left] at this
      exact this
    · rw [hT.np] at hi
      rw [hp', hp']
      split_ifs with h2
      · have := hp hrep l hl i h2
        rwa [hp0, hp0] at this
      · exact h1 _ (by omega)

theorem tanX_add (w w' : (ℕ → ℕ → ℝ) × (ℕ → ℕ → ℝ) × (ℕ → ℕ → ℝ)) (i c : ℕ) :
    tanX t order tau (w + w') i c = tanX t order tau w i c + tanX t order tau w' i c := by
  simp only [tanX, Prod.fst_add, Prod.snd_add, Pi.add_apply, add_mul, Finset.sum_add_distrib]
  ring

theorem tanX_smul (r : ℝ) (w : (ℕ → ℕ → ℝ) × (ℕ → ℕ → ℝ) × (ℕ → ℕ → ℝ)) (i c : ℕ) :
    tanX t order tau (r • w) i c = r * tanX t order tau w i c := by
  simp only [tanX, Prod.smul_fst, Prod.smul_snd, Pi.smul_apply, smul_eq_mul, mul_assoc, ← Finset.mul_sum]
  ring

theorem tanCont_add (w w' : (ℕ → ℕ → ℝ) × (ℕ → ℕ → ℝ) × (ℕ → ℕ → ℝ)) (i n : ℕ) :
    tanCont t order tau (w + w') i n = tanCont t order tau w i n + tanCont t order tau w' i n := by
  simp only [tanCont, Prod.fst_add, Prod.snd_add, Pi.add_apply, add_mul, Finset.sum_add_distrib]
  ring

theorem tanCont_smul (r : ℝ) (w : (ℕ → ℕ → ℝ) × (ℕ → ℕ → ℝ) × (ℕ → ℕ → ℝ)) (i n : ℕ) :
    tanCont t order tau (r • w) i n = r * tanCont t order tau w i n := by
  simp only [tanCont, Prod.smul_fst, Prod.smul_snd, Pi.smul_apply, smul_eq_mul, mul_assoc, ← Finset.mul_sum]
  ring

/-- **C132** (existence) For a regular model with small steps whose tangent model has linear equations: if initial state, inputs and
parameters depend differentiably on `ε` and the variables solve the collocation equations for all small `ε`, then all variables,
states at the collocation points and quadratures are differentiable at 0, and the derivatives are given by a solution of the
collocation equations of the tangent model. -/
theorem C132_exists (hcs : IsCsFunction csFunction)
    (pre : SchemePre freshI casadiPoints csFunction dae t order method tdp_fun d xdot res tau F)
    (pre' : SchemePre freshI' casadiPoints csFunction dae' t order method tdp_fun d' xdot' res' tau F')
    (hs : Scheme.new fresh freshI casadiPoints csFunction dae t order method tdp_fun rep = .ok s)
    (hs' : Scheme.new fresh' freshI' casadiPoints csFunction dae' t order method tdp_fun rep = .ok s')
    (hfr : DistinctSyms fresh) (hfr' : DistinctSyms fresh') (hT : LinearTangent d d' xdot xdot' res res' tdp_fun)
    (L Lz G Gz θ : ℝ) (reg : RegularDae d xdot res L Lz G Gz)
    (T : ButcherTableau ℝ) (hTab : butcherTableuForCollocationPoints tau = .ok T) (α β H : ℝ)
    (hα : ∀ j < s.M, ∑ k ∈ Finset.range s.M, |T.A.e [j, k]| ≤ α) (hβ : ∑ k ∈ Finset.range s.M, |T.b.e [k]| ≤ β)
    (ht : ∀ n < s.N, nd t n ≤ nd t (n + 1) ∧ nd t (n + 1) - nd t n ≤ H) (hθ : θ < 1) (hstep : L * (H * α) ≤ θ)
    (env : ℝ → Env ℝ) (h : ∀ᶠ ε in 𝓝 0, ∀ v ∈ s.eq.vals (env ε), v = 0)
    (hx : ∀ i < d.nx, DifferentiableAt ℝ (fun ε => s.x.val (env ε) i 0) 0)
    (hu : ∀ n < s.N, ∀ i < d.nu, DifferentiableAt ℝ (fun ε => s.u.val (env ε) i n) 0)
    (hp : ∀ c < (if rep then s.N * s.M else 1), ∀ i < d.np, DifferentiableAt ℝ (fun ε => s.p.val (env ε) i c) 0) :
    ∃ env', (∀ v ∈ s'.eq.vals env', v = 0) ∧ TangentVars s s' d rep env env' ∧
    (∀ c < s.N * s.M, ∀ i < d.nx, s'.X.val env' i c = s.X.val (env 0) i c ∧
      HasDerivAt (fun ε => s.X.val (env ε) i c) (s'.X.val env' (d.nx + i) c) 0) ∧
    (∀ n ≤ s.N, ∀ i < d.nq, s'.q.val env' i n = s.q.val (env 0) i n ∧
      HasDerivAt (fun ε => s.q.val (env ε) i n) (s'.q.val env' (d.nq + i) n) 0) ∧
    (∀ c < s.N * s.M, ∀ i < d.nq, s'.Q.val env' i c = s.Q.val (env 0) i c ∧
      HasDerivAt (fun ε => s.Q.val (env ε) i c) (s'.Q.val env' (d.nq + i) c) 0) := by
  have b := pre.built hs
  have b' := pre'.built hs'
  have h0 := h.self_of_nhds
  have hrows : res.rows = d.nx + d.nz := by rw [pre.wf.res_rows, pre.wf.nx, pre.wf.nz]
  obtain ⟨a, b1, c, g, q, heq⟩ := tanEnv_eq fresh fresh' freshI freshI' casadiPoints csFunction dae dae' t order method tdp_fun d d' xdot
    res xdot' res' tau F F' rep s s' hcs pre pre' hs hs' hfr' hT (env 0) h0
  have hx' : ∀ w u p i n, s'.x.val (tanEnv fresh fresh' d.nx d.nz d.nu d.np (env 0) w u p) i n =
      if i < d.nx then s.x.val (env 0) i n else w.1 (i - d.nx) n := fun w u p i n => by
    rw [b'.x, b.x]; simp only [MXExpr.sym, tanEnv, if_true]
  have hk' : ∀ w u p i n, s'.Kd.val (tanEnv fresh fresh' d.nx d.nz d.nu d.np (env 0) w u p) i n =
      if i < d.nx then s.Kd.val (env 0) i n else w.2.1 (i - d.nx) n := fun w u p i n => by
    rw [b'.Kd, b.Kd]; simp only [MXExpr.sym, tanEnv, if_true, if_neg hfr'.xK.symm]
  have hz' : ∀ w u p i n, s'.Z.val (tanEnv fresh fresh' d.nx d.nz d.nu d.np (env 0) w u p) i n =
      if i < d.nz then s.Z.val (env 0) i n else w.2.2 (i - d.nz) n := fun w u p i n => by
    rw [b'.Z, b.Z]; simp only [MXExpr.sym, tanEnv, if_true, if_neg hfr'.xZ.symm, if_neg hfr'.KZ.symm]
  have hu' : ∀ w u p i n, s'.u.val (tanEnv fresh fresh' d.nx d.nz d.nu d.np (env 0) w u p) i n =
      if i < d.nu then s.u.val (env 0) i n else u (i - d.nu) n := fun w u p i n => by
    rw [b'.u, b.u]; simp only [MXExpr.sym, tanEnv, if_true, if_neg hfr'.xu.symm, if_neg hfr'.Ku.symm, if_neg hfr'.Zu.symm]
  have hp' : ∀ w u p i n, s'.p.val (tanEnv fresh fresh' d.nx d.nz d.nu d.np (env 0) w u p) i n =
      if i < d.np then s.p.val (env 0) i n else p (i - d.np) n := fun w u p i n => by
    rw [b'.p, b.p]; simp only [MXExpr.sym, tanEnv, if_neg hfr'.xP.symm, if_neg hfr'.KP.symm, if_neg hfr'.ZP.symm, if_neg hfr'.uP.symm]
  obtain ⟨w, hw1, hw2, hw3⟩ := linear_exists d.nx d.nz s.N (s.N * s.M)
    (fun i l =>
      { toFun := fun w => ∑ k ∈ Finset.range d.nx, a l i k * w.2.1 k l +
          ∑ k ∈ Finset.range d.nx, b1 l i k * tanX t order tau w k l + ∑ k ∈ Finset.range d.nz, c l i k * w.2.2 k l
        map_add' := fun w w' => by
          simp only [tanX_add, Prod.snd_add, Prod.fst_add, Pi.add_apply, mul_add, Finset.sum_add_distrib]
          ring
        map_smul' := fun r w => by
          simp only [tanX_smul, Prod.smul_snd, Prod.smul_fst, Pi.smul_apply, smul_eq_mul, RingHom.id_apply, mul_add, Finset.mul_sum,
            mul_left_comm] })
    (fun i n =>
      { toFun := fun w => tanCont t order tau w i n
        map_add' := fun w w' => tanCont_add t order tau w w' i n
        map_smul' := fun r w => tanCont_smul t order tau r w i n })
    (fun w h1 h2 h3 => by
      simp only [LinearMap.coe_mk, AddHom.coe_mk] at h1 h2
      have hsol := (heq w (fun _ _ => 0) (fun _ _ => 0)).mpr ⟨fun l hl i hi => by
          have := h1 i (by rwa [← hrows]) l (by rwa [b.N_eq, b.M_eq])
          simpa using this, fun n hn i hi => h2 i hi n (by rwa [b.N_eq]), fun _ _ _ _ _ => rfl⟩
      have key := (C132_small_steps fresh fresh' freshI freshI' casadiPoints csFunction dae dae' t order method tdp_fun d d' xdot res xdot'
        res' tau F F' rep s s' hcs pre pre' hs hs' hfr hT.toTangentEquations L Lz G Gz θ reg T hTab α β H hα hβ ht hθ hstep
        (fun _ => env 0) _ ⟨fun i hi => ?_, fun n hn i hi => ?_, fun l hl i hi => ?_⟩ (Eventually.of_forall fun _ => h0) hsol).1
      · refine ⟨fun i hi n hn => ?_, fun i hi l hl => ?_, fun i hi l hl => ?_⟩
        · have := (key.x n (by omega) i hi).2
          rw [hx', if_neg (by omega), Nat.add_sub_cancel_left] at this
          exact this.unique (hasDerivAt_const _ _)
        · have := (key.k l hl i hi).2
          rw [hk', if_neg (by omega), Nat.add_sub_cancel_left] at this
          exact this.unique (hasDerivAt_const _ _)
        · have := (key.z l hl i hi).2
          rw [hz', if_neg (by omega), Nat.add_sub_cancel_left] at this
          exact this.unique (hasDerivAt_const _ _)
      · rw [hx', hx', if_pos hi, if_neg (by omega), Nat.add_sub_cancel_left, h3 i hi]
        exact ⟨rfl, hasDerivAt_const _ _⟩
      · rw [hu', hu', if_pos hi, if_neg (by omega)]
        exact ⟨rfl, hasDerivAt_const _ _⟩
      · rw [hp', hp', if_pos hi, if_neg (by omega)]
        exact ⟨rfl, hasDerivAt_const _ _⟩)
    (fun i l => -(∑ k ∈ Finset.range d.nu, g l i k * deriv (fun ε => s.u.val (env ε) k (l / order)) 0 +
      ∑ k ∈ Finset.range d.np, q l i k * deriv (fun ε => s.p.val (env ε) k (if rep then l else 0)) 0))
    (fun i => deriv (fun ε => s.x.val (env ε) i 0) 0)
  simp only [LinearMap.coe_mk, AddHom.coe_mk] at hw1 hw2
  have hsol := (heq w (fun i n => deriv (fun ε => s.u.val (env ε) i n) 0) (fun i l => deriv (fun ε => s.p.val (env ε) i l) 0)).mpr
    ⟨fun l hl i hi => by
      have := hw1 i (by rwa [← hrows]) l (by rwa [b.N_eq, b.M_eq])
      rw [this, neg_add_cancel], fun n hn i hi => hw2 i hi n (by rwa [b.N_eq]), fun hrep l hl i hi => by
      refine Filter.EventuallyEq.deriv_eq ?_
      filter_upwards [h] with ε hε
      exact ((Scheme.eq_zero_iff pre b (env ε)).mp hε).2.2 hrep l hl i hi⟩
  refine ⟨_, hsol, C132_small_steps fresh fresh' freshI freshI' casadiPoints csFunction dae dae' t order method tdp_fun d d' xdot res
    xdot' res' tau F F' rep s s' hcs pre pre' hs hs' hfr hT.toTangentEquations L Lz G Gz θ reg T hTab α β H hα hβ ht hθ hstep env _
    ⟨fun i hi => ?_, fun n hn i hi => ?_, fun l hl i hi => ?_⟩ h hsol⟩
  · rw [hx', hx', if_pos hi, if_neg (by omega), Nat.add_sub_cancel_left, hw3 i hi]
    exact ⟨rfl, (hx i hi).hasDerivAt⟩
  · rw [hu', hu', if_pos hi, if_neg (by omega), Nat.add_sub_cancel_left]
    exact ⟨rfl, (hu n hn i hi).hasDerivAt⟩
  · rw [hp', hp', if_pos hi, if_neg (by omega), Nat.add_sub_cancel_left]
    exact ⟨rfl, (hp l hl i hi).hasDerivAt⟩

end

/-! ## Non-vacuity -/

/-- The tangent model of `x' = f(x)` is linear in the derivatives. -/
theorem linearTangent1 (f f' : ℝ → ℝ) (hf : ∀ x, HasDerivAt f (f' x) x) (freshI : String → ℕ) :
    LinearTangent (odeD freshI 1 (rhs1 f)) (odeD freshI 2 (rhs1T f f')) (.sym (freshI "xdot") 1)
    (.sym (freshI "xdot") 2) (odeRes freshI 1 (rhs1 f)) (odeRes freshI 2 (rhs1T f f')) none := by
  refine ⟨tangentEquations1 f f' hf freshI, fun e he => ?_⟩
  refine ⟨fun _ _ => 1, fun _ _ => -f' (e 0 0 0), fun _ _ => 0, fun _ _ => 0, fun _ _ => 0, fun e' h => ?_⟩
  have k0 : e' (freshI "xdot") 0 0 = e (freshI "xdot") 0 0 := h.xdot 0 Nat.one_pos
  have x0 : e' 0 0 0 = e 0 0 0 := h.x 0 Nat.one_pos
  have r0 := (ode_residual freshI 1 (rhs1 f) e).mp he 0 Nat.one_pos
  rw [ode_residual]
  have hnx : (odeD freshI 1 (rhs1 f)).nx = 1 := rfl
  have hnz : (odeD freshI 1 (rhs1 f)).nz = 0 := rfl
  have hnu : (odeD freshI 1 (rhs1 f)).nu = 0 := rfl
  have hnp : (odeD freshI 1 (rhs1 f)).np = 0 := rfl
  simp only [hnx, hnz, hnu, hnp, Finset.sum_range_one, Finset.sum_range_zero, add_zero]
  constructor
  · intro hz i hi
    have := hz 1 (by omega)
    simp only [rhs1T, one_ne_zero, if_false, x0] at this
    change 1 * e' (freshI "xdot") 1 0 + -f' (e 0 0 0) * e' 0 1 0 = 0
    rw [this]; ring
  · intro hz i hi
    have h1 : 1 * e' (freshI "xdot") 1 0 + -f' (e 0 0 0) * e' 0 1 0 = 0 := hz 0 Nat.one_pos
    interval_cases i
    · rw [k0, r0]; simp [rhs1, rhs1T, x0]
    · simp only [rhs1T, one_ne_zero, if_false, x0]
      linarith

/-- C132 (existence) for `x' = sin(x)`: the implicitly defined midpoint of the step is differentiable in the initial state. -/
example (freshI : String → ℕ) (hI : 6 ≤ freshI "xdot") (m : ℝ → ℝ) (a : ℝ) (hm : ∀ ε, m ε - Real.sin (m ε) / 2 = a + ε) :
    DifferentiableAt ℝ m 0 := by
  obtain ⟨F, F', s, s', pre, pre', hs, hs', hN, hM, heq, -, hdat, -, -⟩ := step1 Real.sin Real.cos freshI hI m a hm
    (by linarith [Real.cos_le_one (m 0)])
  obtain ⟨T, hT, hA0, hB0⟩ := half_tableau
  obtain ⟨env', -, key, -⟩ := C132_exists exFresh exFresh freshI freshI _ _ _ _ _ _ _ _ _ _ _ _ _ _ _ F F' false s s' idealCsFunction_spec
    pre pre' hs hs' (by constructor <;> decide) (by constructor <;> decide) (linearTangent1 _ _ Real.hasDerivAt_sin freshI) 1 0 1 0 (1 / 2)
    (sin_regular freshI) T hT (1 / 2) 1 1
    (fun j hj => by
      rw [hM] at hj ⊢
      obtain rfl : j = 0 := by omega
      rw [Finset.sum_range_one, hA0]
      norm_num) (by rw [hM, Finset.sum_range_one, hB0, abs_one]) (fun n hn => by
        rw [hN] at hn
        obtain rfl : n = 0 := by omega
        norm_num [nd]) (by norm_num) (by norm_num) (fun ε => env1 Real.sin (m ε)) (Eventually.of_forall fun ε => heq _)
    (fun i hi => (hdat.x i hi).2.differentiableAt) (fun n hn i hi => (hdat.u n hn i hi).2.differentiableAt)
    (fun n hn i hi => (hdat.p n hn i hi).2.differentiableAt)
  have hk := (key.k 0 (by rw [hN, hM]; omega) 0 Nat.one_pos).2.differentiableAt
  have b := pre.built hs
  rw [b.Kd] at hk
  have hk' : DifferentiableAt ℝ (fun ε => Real.sin (m ε)) 0 := by
    simpa [MXExpr.sym, exFresh, env1] using hk
  have : m = fun ε => a + ε + Real.sin (m ε) / 2 := funext fun ε => by linarith [hm ε]
  rw [this]
  exact (differentiableAt_id.const_add a).add (hk'.div_const 2)

end CE
