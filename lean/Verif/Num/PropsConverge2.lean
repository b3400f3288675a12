import Verif.Num.PropsConverge
import Verif.Num.PropsScheme4

/-!
# Property C83, continued: quadratures. Property C84: accuracy of the integrator
-/

open Set

namespace CE

/-- The quadrature expression is Lipschitz continuous in the state with constant `L` (maximum norm) and does not depend on the state
derivative. -/
def LipschitzQuad (d : DaeObj ℝ) (L : ℝ) : Prop :=
  ∀ e e' : Env ℝ, (∀ i < d.nu, d.u.val e i 0 = d.u.val e' i 0) → (∀ i < d.np, d.p.val e i 0 = d.p.val e' i 0) →
    d.t.val e 0 0 = d.t.val e' 0 0 → (∀ i < d.tdp.rows, ∀ j < d.tdp.cols, d.tdp.val e i j = d.tdp.val e' i j) →
    ∀ δ, (∀ i < d.nx, |d.x.val e i 0 - d.x.val e' i 0| ≤ δ) → ∀ k < d.nq, |d.quad.val e k 0 - d.quad.val e' k 0| ≤ L * δ

/-- `Y` is an integral of the quadrature expression along the states `y`, with the inputs `u` (constant on the intervals of `t`) and
the parameter `p`: on every interval it has the derivative `g n`, and this is the value of the expression. -/
structure ExactQuadrature (d : DaeObj ℝ) (tdp_fun : Option (ℝ → Mat ℝ)) (t : List ℝ) (u : ℕ → ℕ → ℝ) (p : ℕ → ℝ)
    (y : ℕ → ℝ → ℝ) (Y : ℕ → ℝ → ℝ) (g : ℕ → ℕ → ℝ → ℝ) : Prop where
  deriv : ∀ n < t.length - 1, ∀ k < d.nq, ∀ τ ∈ Icc (nd t n) (nd t (n + 1)),
    HasDerivWithinAt (Y k) (g n k τ) (Icc (nd t n) (nd t (n + 1))) τ
  value : ∀ n < t.length - 1, ∀ τ ∈ Icc (nd t n) (nd t (n + 1)), ∀ e : Env ℝ,
    (∀ i < d.x.rows, d.x.val e i 0 = y i τ) → (∀ i < d.u.rows, d.u.val e i 0 = u i n) →
    (∀ i < d.p.rows, d.p.val e i 0 = p i) → d.t.val e 0 0 = τ →
    (∀ h, tdp_fun = some h → ∀ i < d.tdp.rows, ∀ j < d.tdp.cols, d.tdp.val e i j = (h τ).e i j) →
    ∀ k < d.nq, d.quad.val e k 0 = g n k τ

section
variable (fresh freshI : String → ℕ) (casadiPoints : ℕ → String → Except PyErr (List ℝ))
    (csFunction : List (MXExpr ℝ) → List (MXExpr ℝ) → Except PyErr (CsFn ℝ))
    (dae : DaeObj ℝ) (t : List ℝ) (order : ℕ) (method : String) (tdp_fun : Option (ℝ → Mat ℝ))
    (d : DaeObj ℝ) (xdot res : MXExpr ℝ) (tau : List ℝ) (F : CsFn ℝ) (rep : Bool) (s : Scheme ℝ)

/-- The symbols of the model can be given a state and the inputs and parameters of a collocation point. -/
theorem exists_state_point (hcs : IsCsFunction csFunction)
    (pre : SchemePre freshI casadiPoints csFunction dae t order method tdp_fun d xdot res tau F)
    (b : s.Built fresh t order tdp_fun rep d xdot res tau F)
    (hf : [fresh "x", fresh "K", fresh "u", fresh "P"].Nodup) (env : Env ℝ) (ξ : ℕ → ℝ) (n j : ℕ) (hn : n < t.length - 1)
    (hj : j < order) : ∃ e : Env ℝ, (∀ i < d.x.rows, d.x.val e i 0 = ξ i) ∧ (∀ i < d.u.rows, d.u.val e i 0 = s.u.val env i n) ∧
      (∀ i < d.p.rows, d.p.val e i 0 = s.p.val env i (if rep then n * order + j else 0)) ∧
      d.t.val e 0 0 = nd s.tc (n * order + j) ∧
      ∀ g, tdp_fun = some g → ∀ i < d.tdp.rows, ∀ k < d.tdp.cols, d.tdp.val e i k = (g (nd s.tc (n * order + j))).e i k := by
  have hc : n * order + j < (t.length - 1) * order := block_lt hn hj
  simp only [List.nodup_cons, List.mem_cons, List.not_mem_nil, or_false, not_or, not_false_eq_true, List.nodup_nil, and_true] at hf
  obtain ⟨⟨f1, f2, f3⟩, ⟨f4, f5⟩, f6⟩ := hf
  let env2 : Env ℝ := fun id i c => if id = fresh "x" then ξ i else if id = fresh "K" then 0 else env id i c
  obtain ⟨e2, a2⟩ := exists_atPoint hcs pre b.toCore env2 hc
  refine ⟨e2, fun i hi => ?_, fun i hi => ?_, fun i hi => ?_, a2.t, a2.tdp⟩
  · rw [a2.x i hi, b.X env2 i n j hn hj]
    simp [env2, Ne.symm f1]
  · rw [a2.u i hi, b.M_eq, div_block hj, b.u]
    simp [MXExpr.sym, env2, Ne.symm f2, Ne.symm f4]
  · rw [a2.p i hi, b.p]
    simp [MXExpr.sym, env2, Ne.symm f3, Ne.symm f5]

/-- The error of the quadratures, if the errors of the quadrature expression at the collocation points are at most `E`. -/
theorem quadrature_core (pre : SchemePre freshI casadiPoints csFunction dae t order method tdp_fun d xdot res tau F)
    (b : s.Built fresh t order tdp_fun rep d xdot res tau F)
    (hd : tau.Nodup) (h01 : ∀ k < tau.length, nd tau k ∈ Icc (0 : ℝ) 1)
    (T : ButcherTableau ℝ) (hT : butcherTableuForCollocationPoints tau = .ok T) (β H : ℝ)
    (hβ : ∑ k ∈ Finset.range order, |T.b.e [k]| ≤ β)
    (ht : ∀ n < s.N, nd t n ≤ nd t (n + 1) ∧ nd t (n + 1) - nd t n ≤ H) (env : Env ℝ) (Y : ℕ → ℝ → ℝ) (g : ℕ → ℕ → ℝ → ℝ)
    (hderiv : ∀ n < t.length - 1, ∀ k < d.nq, ∀ τ ∈ Icc (nd t n) (nd t (n + 1)),
      HasDerivWithinAt (Y k) (g n k τ) (Icc (nd t n) (nd t (n + 1))) τ) (B E : ℝ)
    (hsm : ∀ n < s.N, ∀ k < d.nq, ContDiffOn ℝ order (g n k) (Icc (nd t n) (nd t (n + 1))))
    (hB : ∀ n < s.N, ∀ k < d.nq, ∀ τ ∈ Icc (nd t n) (nd t (n + 1)),
      |iteratedDerivWithin order (g n k) (Icc (nd t n) (nd t (n + 1))) τ| ≤ B) (hE0 : 0 ≤ E)
    (hval : ∀ n < s.N, ∀ j < order, ∀ k < d.nq, |s.quad.val env k (n * order + j) - g n k (nd s.tc (n * order + j))| ≤ E) :
    ∀ n ≤ s.N, ∀ k < d.nq, |s.q.val env k n - (Y k (nd t n) - Y k (nd t 0))| ≤
      (nd t n - nd t 0) * (β * E + (1 + β) * (B * H ^ order / ((order - 1).factorial : ℝ))) := by
  have hpos := pre.pos
  have hlen := pre.len
  have hN := b.N_eq
  have hM := b.M_eq
  have hb : ∀ k < order, T.b.e [k] = wb tau k := by
    intro k hk
    rw [butcher_ok] at hT; cases hT
    simp [NdArray.vec, nd, List.getD_eq_getElem?_getD, hlen, hk, wb]
  have hβ' : ∑ k ∈ Finset.range order, |wb tau k| ≤ β := by
    refine le_trans (le_of_eq (Finset.sum_congr rfl fun k hk => ?_)) hβ
    rw [hb k (Finset.mem_range.mp hk)]
  have hβ0 : 0 ≤ β := (Finset.sum_nonneg fun _ _ => abs_nonneg _).trans hβ'
  intro n hn k hk
  induction n with
  | zero => rw [b.q_zero]; simp
  | succ n ih =>
    have hn1 : n < s.N := hn
    have hn' : n < t.length - 1 := by rw [← hN]; exact hn1
    have ih := ih hn1.le
    obtain ⟨t1, t2⟩ := ht n hn1
    have hadd : nd t n + (nd t (n + 1) - nd t n) = nd t (n + 1) := by ring
    have hB0 : 0 ≤ B := (abs_nonneg _).trans (hB n hn1 k hk (nd t n) ⟨le_rfl, t1⟩)
    rw [b.q env k n hn']
    set h := nd t (n + 1) - nd t n with hh
    have hh0 : 0 ≤ h := sub_nonneg.mpr t1
    have q1 := quadrature_error hd (by rw [hlen]; exact hpos) h01 (a := nd t n) (h := h) (B := B) hh0 (y := Y k) (f := g n k)
      (by rw [hadd]; exact hderiv n hn' k hk) (by rw [hlen, hadd]; exact hsm n hn1 k hk) (by rw [hlen, hadd]; exact hB n hn1 k hk)
      (c := 1) ⟨zero_le_one, le_rfl⟩
    rw [hlen, mul_one, hadd] at q1
    have q2 : |∑ l ∈ Finset.range order, (s.quad.val env k (n * order + l) - g n k (nd t n + h * nd tau l)) * wb tau l| ≤ β * E := by
      refine (Finset.abs_sum_le_sum_abs _ _).trans ?_
      refine le_trans ?_ (mul_le_mul_of_nonneg_right hβ' hE0)
      rw [Finset.sum_mul]
      refine Finset.sum_le_sum fun l hl => ?_
      have hl := Finset.mem_range.mp hl
      have := hval n hn1 l hl k hk
      rw [b.tc n l hn' hl] at this
      rw [abs_mul, mul_comm]
      exact mul_le_mul_of_nonneg_left this (abs_nonneg _)
    have hD : B * h ^ order / ((order - 1).factorial : ℝ) ≤ B * H ^ order / ((order - 1).factorial : ℝ) := by
      have : h ^ order ≤ H ^ order := pow_le_pow_left₀ hh0 t2 _
      gcongr
    have q3 : h * ((1 + ∑ l ∈ Finset.range order, |((butcherPoly tau l).polyint).eval 1|) *
        (B * h ^ order / ((order - 1).factorial : ℝ))) ≤ h * ((1 + β) * (B * H ^ order / ((order - 1).factorial : ℝ))) := by
      refine mul_le_mul_of_nonneg_left (mul_le_mul ?_ hD (by positivity) (by positivity)) hh0
      exact add_le_add le_rfl hβ'
    have e1 : s.q.val env k n + h * ∑ l ∈ Finset.range order, s.quad.val env k (n * order + l) * wb tau l - (Y k (nd t (n + 1)) - Y k (nd t 0)) =
        (s.q.val env k n - (Y k (nd t n) - Y k (nd t 0))) +
        h * (∑ l ∈ Finset.range order, (s.quad.val env k (n * order + l) - g n k (nd t n + h * nd tau l)) * wb tau l) -
        (Y k (nd t (n + 1)) - Y k (nd t n) - h * ∑ l ∈ Finset.range order, g n k (nd t n + h * nd tau l) * ((butcherPoly tau l).polyint).eval 1) := by
      simp only [sub_mul, Finset.sum_sub_distrib, mul_sub, wb]
      ring
    rw [e1]
    refine (abs_sub _ _).trans ?_
    have e2 : (nd t (n + 1) - nd t 0) * (β * E + (1 + β) * (B * H ^ order / ((order - 1).factorial : ℝ))) =
        (nd t n - nd t 0) * (β * E + (1 + β) * (B * H ^ order / ((order - 1).factorial : ℝ))) +
          h * (β * E) + h * ((1 + β) * (B * H ^ order / ((order - 1).factorial : ℝ))) := by
      rw [hh]; ring
    rw [e2]
    refine add_le_add ((abs_add_le _ _).trans (add_le_add ih ?_)) (q1.trans q3)
    rw [abs_mul, abs_of_nonneg hh0]
    exact mul_le_mul_of_nonneg_left q2 hh0

/-- **C83** (quadratures) If the states at the collocation points differ from `y` at most by `E`, then `q` differs from the exact
integral along `y` at most by a constant times `E` plus a constant times `H` to the number of nodes, per unit of time. -/
theorem C83_quadrature (hcs : IsCsFunction csFunction)
    (pre : SchemePre freshI casadiPoints csFunction dae t order method tdp_fun d xdot res tau F)
    (hs : Scheme.new fresh freshI casadiPoints csFunction dae t order method tdp_fun rep = .ok s)
    (hf : [fresh "x", fresh "K", fresh "u", fresh "P"].Nodup) (L : ℝ) (lip : LipschitzQuad d L)
    (hd : tau.Nodup) (h01 : ∀ k < tau.length, nd tau k ∈ Icc (0 : ℝ) 1)
    (T : ButcherTableau ℝ) (hT : butcherTableuForCollocationPoints tau = .ok T) (β H : ℝ)
    (hβ : ∑ k ∈ Finset.range s.M, |T.b.e [k]| ≤ β)
    (ht : ∀ n < s.N, nd t n ≤ nd t (n + 1) ∧ nd t (n + 1) - nd t n ≤ H)
    (env : Env ℝ) (heq : ∀ v ∈ s.eq.vals env, v = 0)
    (y Y : ℕ → ℝ → ℝ) (g : ℕ → ℕ → ℝ → ℝ)
    (ex : ExactQuadrature d tdp_fun t (s.u.val env) (fun i => s.p.val env i 0) y Y g) (B E : ℝ)
    (hsm : ∀ n < s.N, ∀ k < d.nq, ContDiffOn ℝ s.M (g n k) (Icc (nd t n) (nd t (n + 1))))
    (hB : ∀ n < s.N, ∀ k < d.nq, ∀ τ ∈ Icc (nd t n) (nd t (n + 1)),
      |iteratedDerivWithin s.M (g n k) (Icc (nd t n) (nd t (n + 1))) τ| ≤ B)
    (hE : ∀ n < s.N, ∀ j < s.M, ∀ i < d.nx, |s.X.val env i (n * s.M + j) - y i (nd s.tc (n * s.M + j))| ≤ E)
    (hE0 : 0 ≤ L * E) :
    ∀ n ≤ s.N, ∀ k < d.nq, |s.q.val env k n - (Y k (nd t n) - Y k (nd t 0))| ≤
      (nd t n - nd t 0) * (β * (L * E) + (1 + β) * (B * H ^ s.M / ((s.M - 1).factorial : ℝ))) := by
  have b := pre.built hs
  have hlen := pre.len
  have hN := b.N_eq
  have hM := b.M_eq
  rw [hM] at hβ hsm hB hE ⊢
  have hnp : d.np = d.p.rows := by simp [DaeObj.np, MXExpr.numel, pre.p]
  have hnq : d.nq = d.quad.rows := by simp [DaeObj.nq, MXExpr.numel, pre.quad]
  obtain ⟨-, -, hpar⟩ := (Scheme.eq_zero_iff pre b env).mp heq
  -- the quadrature expression at the points
  have hval : ∀ n < s.N, ∀ j < order, ∀ k < d.nq, |s.quad.val env k (n * order + j) - g n k (nd s.tc (n * order + j))| ≤ L * E := by
    intro n hn j hj k hk
    have hn' : n < t.length - 1 := by rw [← hN]; exact hn
    have hc : n * order + j < (t.length - 1) * order := block_lt hn' hj
    have hp0 : ∀ i < d.p.rows, s.p.val env i (if rep then n * order + j else 0) = s.p.val env i 0 := by
      intro i hi
      cases rep
      · rfl
      · exact hpar rfl _ hc i (by rw [hnp]; exact hi)
    obtain ⟨e1, a1⟩ := exists_atPoint hcs pre b.toCore env hc
    obtain ⟨e2, x2, u2, p2, t2, d2⟩ := exists_state_point fresh freshI casadiPoints csFunction dae t order method tdp_fun d xdot res tau
      F rep s hcs pre b hf env (fun i => y i (nd s.tc (n * order + j))) n j hn' hj
    have hmem : nd s.tc (n * order + j) ∈ Icc (nd t n) (nd t (n + 1)) := by
      have h1 := h01 j (by rw [hlen]; exact hj)
      have h2 := (ht n hn).1
      rw [b.tc n j hn' hj]
      constructor <;> nlinarith [h1.1, h1.2]
    rw [(a1.out hcs pre b.toCore hc).2 k (by rw [← hnq]; exact hk),
      ← ex.value n hn' _ hmem e2 x2 u2 (fun i hi => by rw [p2 i hi, hp0 i hi]) t2 d2 k hk]
    refine lip e1 e2 (fun i hi => ?_) (fun i hi => ?_) ?_ (fun i hi l hl => ?_) E (fun i hi => ?_) k hk
    · have hi' : i < d.u.rows := by rw [← pre.wf.nu]; exact hi
      rw [a1.u i hi', u2 i hi', hM, div_block hj]
    · have hi' : i < d.p.rows := by rw [← hnp]; exact hi
      rw [a1.p i hi', p2 i hi']
    · rw [a1.t, t2]
    · cases htd : tdp_fun with
      | none =>
        have := pre.tdpFun
        rw [htd] at this
        first
          | exact absurd hi (by simp_all)
          | exact absurd hl (by simp_all)
      | some h => rw [a1.tdp h htd i hi l hl, d2 h htd i hi l hl]
    · have hi' : i < d.x.rows := by rw [← pre.wf.nx]; exact hi
      rw [a1.x i hi', x2 i hi']
      exact hE n hn j hj i hi
  exact quadrature_core fresh freshI casadiPoints csFunction dae t order method tdp_fun d xdot res tau F rep s pre b hd h01 T hT β H hβ ht
    env Y g ex.deriv B (L * E) hsm hB hE0 hval
end

/-! ## Non-vacuity: the integral of the state of `x' = -x` -/

/-- `1 - exp(-t)` is the integral of `exp(-t)`; the quadrature is Lipschitz continuous with constant 1. -/
theorem decay_quadrature (freshI : String → ℕ) (t : List ℝ) (u : ℕ → ℕ → ℝ) (p : ℕ → ℝ) :
    LipschitzQuad (decayD freshI) 1 ∧
    ExactQuadrature (decayD freshI) none t u p (fun _ τ => Real.exp (-τ)) (fun _ τ => -Real.exp (-τ)) (fun _ _ τ => Real.exp (-τ)) := by
  refine ⟨fun e e' _ _ _ _ δ hδ k _ => ?_, fun n _ k _ τ _ => ?_, fun n _ τ _ e hx _ _ _ _ k _ => hx 0 Nat.one_pos⟩
  · rw [one_mul]
    exact hδ 0 Nat.one_pos
  · have : HasDerivWithinAt (fun τ => -Real.exp (-τ)) (-(Real.exp (-τ) * -1)) (Icc (nd t n) (nd t (n + 1))) τ :=
      ((hasDerivAt_neg τ).exp.neg).hasDerivWithinAt
    rw [mul_neg_one, neg_neg] at this
    exact this

/-- Midpoint rule with steps of at most `H <= 1`: `q` at the end differs from `1 - exp(-t)` at most by a constant times `H`. -/
example (freshI : String → ℕ) (hI : 7 ≤ freshI "xdot") (t : List ℝ) (two : 2 ≤ t.length) (H : ℝ) (h0 : nd t 0 = 0)
    (ht : ∀ n < t.length - 1, nd t n < nd t (n + 1) ∧ nd t (n + 1) - nd t n ≤ H) : ∃ s,
    Scheme.new exFresh freshI (fun _ _ => .ok [1 / 2]) idealCsFunction decayO t 1 "legendre" none = .ok s ∧ s.N = t.length - 1 ∧
    ∀ env, (∀ v ∈ s.eq.vals env, v = 0) → ∀ E, 0 ≤ E →
      (∀ n < s.N, |s.X.val env 0 n - Real.exp (-nd s.tc n)| ≤ E) → ∀ n ≤ s.N,
      |s.q.val env 0 n - (1 - Real.exp (-nd t n))| ≤ nd t n * (E + 2 * H) := by
  obtain ⟨F, pre⟩ := decay_pre freshI hI t [1 / 2] two (by simp)
  obtain ⟨s, hs⟩ := C26_constructed exFresh freshI _ _ _ _ _ _ _ _ _ _ _ _ false pre
  have b := pre.built hs
  have hN : s.N = t.length - 1 := b.N_eq
  have hM : s.M = 1 := b.M_eq
  obtain ⟨T, hT, -, hB, -⟩ := C09_butcher_consistent ([1 / 2] : List ℝ) (by simp) (by simp)
  have hB0 : T.b.e [0] = 1 := by simpa using hB
  have hpos : ∀ n ≤ s.N, 0 ≤ nd t n := by
    intro n
    induction n with
    | zero => intro _; exact h0.ge
    | succ n ih => intro hn; exact (ih (by omega)).trans (ht n (by omega)).1.le
  have hsmooth : ContDiff ℝ 1 (fun τ : ℝ => Real.exp (-τ)) := Real.contDiff_exp.comp contDiff_neg
  refine ⟨s, hs, hN, fun env heq E hE0 hE n hn => ?_⟩
  obtain ⟨lq, ex⟩ := decay_quadrature freshI t (s.u.val env) (fun i => s.p.val env i 0)
  have := C83_quadrature exFresh freshI _ _ _ _ _ _ _ _ _ _ _ _ false s idealCsFunction_spec pre hs (by decide) 1 lq (by simp)
    (by intro k hk; obtain rfl : k = 0 := (by simpa using hk); norm_num [nd]) T hT 1 H
    (by rw [hM, Finset.sum_range_one, hB0, abs_one]) (fun n hn => ⟨(ht n (by omega)).1.le, (ht n (by omega)).2⟩) env heq _ _ _ ex 1 E
    (fun n _ k _ => by rw [hM]; exact hsmooth.contDiffOn) (fun n hn k _ τ hτ => by
      rw [hM, iteratedDerivWithin_eq_iteratedDeriv (uniqueDiffOn_Icc (ht n (by omega)).1) (by exact_mod_cast hsmooth.contDiffAt) hτ,
        iteratedDeriv_one]
      have hdv : deriv (fun τ : ℝ => Real.exp (-τ)) τ = Real.exp (-τ) * -1 := ((hasDerivAt_neg τ).exp).deriv
      rw [hdv, mul_neg_one, abs_neg, Real.abs_exp]
      refine Real.exp_le_one_iff.mpr ?_
      have := hpos n (by omega)
      linarith [hτ.1])
    (fun n hn j hj i hi => by
      obtain rfl : i = 0 := by change i < 1 at hi; omega
      obtain rfl : j = 0 := by omega
      rw [hM, mul_one, add_zero]
      exact hE n hn) (by rw [one_mul]; exact hE0) n hn 0 Nat.one_pos
  rw [h0, hM] at this
  simp only [neg_zero, Real.exp_zero, sub_zero, one_mul, pow_one, Nat.sub_self, Nat.factorial_zero, Nat.cast_one, div_one] at this
  rw [show (1 : ℝ) - Real.exp (-nd t n) = -Real.exp (-nd t n) - -1 by ring]
  refine this.trans (le_of_eq ?_)
  ring

end CE
