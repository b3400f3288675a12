import Verif.Num.LemColumns
import Verif.Num.PropsReverse

/-!
# Property C130: changes of variables and of time

Two models whose solutions are related by an affine map of time, a linear map of the states plus a polynomial in time, and a
selection of algebraic states, inputs and parameters: the collocation equations of the two models are related in the same way.
-/

open Polynomial

namespace CE

variable {K : Type} [Field K]

/-- How the quantities of one model (`T`, `g`, `W`, `G`: states and quadratures; `sz`, `su`, `sp`: algebraic states, inputs,
parameters) follow from those of another whose time is `α τ + β` when the time of the first is `τ`:
`x(τ) = T x'(α τ + β) + g(τ)`, `q(τ) = W q'(α τ + β) + G(τ)`, `z = z'[sz]`, `u = u'[su]`, `p = p'[sp]`. -/
structure Change (K : Type) [Field K] where
  α : K
  β : K
  T : ℕ → ℕ → K
  g : ℕ → K[X]
  W : ℕ → ℕ → K
  G : ℕ → K[X]
  sz : ℕ → ℕ
  su : ℕ → ℕ
  sp : ℕ → ℕ

/-- The symbols of the models `d` and `d'` have, under `env` and `env'`, values that are related by the change at time `τ`. -/
structure Change.AtTime (m : Change K) (d d' : DaeObj K) (xdot xdot' : MXExpr K) (tdp_fun tdp_fun' : Option (K → Mat K))
    (env env' : Env K) (τ : K) : Prop where
  xdot : ∀ i < d.nx, xdot.val env i 0 = m.α * ∑ j ∈ Finset.range d'.nx, m.T i j * xdot'.val env' j 0 + (derivative (m.g i)).eval τ
  x : ∀ i < d.nx, d.x.val env i 0 = ∑ j ∈ Finset.range d'.nx, m.T i j * d'.x.val env' j 0 + (m.g i).eval τ
  z : ∀ i < d.nz, d.z.val env i 0 = d'.z.val env' (m.sz i) 0
  u : ∀ i < d.nu, d.u.val env i 0 = d'.u.val env' (m.su i) 0
  p : ∀ i < d.np, d.p.val env i 0 = d'.p.val env' (m.sp i) 0
  t : d.t.val env 0 0 = τ
  t' : d'.t.val env' 0 0 = m.α * τ + m.β
  tdp : ∀ f, tdp_fun = some f → ∀ i < d.tdp.rows, ∀ j < d.tdp.cols, d.tdp.val env i j = (f τ).e i j
  tdp' : ∀ f, tdp_fun' = some f → ∀ i < d'.tdp.rows, ∀ j < d'.tdp.cols, d'.tdp.val env' i j = (f (m.α * τ + m.β)).e i j

/-- The change takes solutions of the model `d'` with the property `S` to solutions of the model `d`: wherever the quantities are
related, `S` holds (of the assignment and the time of `d`) and the residual of `d'` vanishes, that of `d` vanishes and the
quadrature expressions are related. -/
structure Change.Model (m : Change K) (S : Env K → K → Prop) (d d' : DaeObj K) (xdot xdot' res res' : MXExpr K) (tdp_fun tdp_fun' : Option (K → Mat K)) :
    Prop where
  sz : ∀ i < d.nz, m.sz i < d'.nz
  su : ∀ i < d.nu, m.su i < d'.nu
  sp : ∀ i < d.np, m.sp i < d'.np
  res : ∀ env env' τ, m.AtTime d d' xdot xdot' tdp_fun tdp_fun' env env' τ → S env' τ → ResidualZero res' env' →
    ResidualZero res env
  quad : ∀ env env' τ, m.AtTime d d' xdot xdot' tdp_fun tdp_fun' env env' τ → S env' τ → ResidualZero res' env' →
    ∀ i < d.nq, d.quad.val env i 0 = m.α * ∑ k ∈ Finset.range d'.nq, m.W i k * d'.quad.val env' k 0 + (derivative (m.G i)).eval τ

/-- The variables of the scheme `s` follow from those of `s'` by the change. -/
structure Change.Follows (m : Change K) (s s' : Scheme K) (d d' : DaeObj K) (rep : Bool) (env env' : Env K) : Prop where
  x : ∀ n ≤ s.N, ∀ i < d.nx, s.x.val env i n = ∑ j ∈ Finset.range d'.nx, m.T i j * s'.x.val env' j n + (m.g i).eval (nd s.t n)
  k : ∀ c < s.N * s.M, ∀ i < d.nx, s.Kd.val env i c =
    m.α * ∑ j ∈ Finset.range d'.nx, m.T i j * s'.Kd.val env' j c + (derivative (m.g i)).eval (nd s.tc c)
  z : ∀ c < s.N * s.M, ∀ i < d.nz, s.Z.val env i c = s'.Z.val env' (m.sz i) c
  u : ∀ n < s.N, ∀ i < d.nu, s.u.val env i n = s'.u.val env' (m.su i) n
  p : ∀ c < (if rep then s.N * s.M else 1), ∀ i < d.np, s.p.val env i c = s'.p.val env' (m.sp i) c

section
variable [DecidableEq K] [CharZero K]

theorem wA_affine {tau : List K} (hd : tau.Nodup) (a h : K) {P : K[X]} (hP : P.degree ≤ tau.length) (hpos : 0 < tau.length)
    (j : ℕ) : h * ∑ k ∈ Finset.range tau.length, (derivative P).eval (a + h * nd tau k) * wA tau j k =
      P.eval (a + h * nd tau j) - P.eval a :=
  weights_affine hd a h (degree_deriv_lt hpos hP) rfl _

theorem wb_affine {tau : List K} (hd : tau.Nodup) (a h : K) {P : K[X]} (hP : P.degree ≤ tau.length) (hpos : 0 < tau.length) :
    h * ∑ k ∈ Finset.range tau.length, (derivative P).eval (a + h * nd tau k) * wb tau k = P.eval (a + h) - P.eval a := by
  have := weights_affine hd a h (degree_deriv_lt hpos hP) rfl 1
  rw [mul_one] at this
  exact this

omit [DecidableEq K] [CharZero K] in
/-- A weighted sum of derivatives that follow by the change. -/
theorem change_sum {n' M : ℕ} (α h : K) (T : ℕ → K) (κ' : ℕ → ℕ → K) (γ w : ℕ → K) :
    h * ∑ k ∈ Finset.range M, (α * ∑ j ∈ Finset.range n', T j * κ' j k + γ k) * w k =
      ∑ j ∈ Finset.range n', T j * (α * h * ∑ k ∈ Finset.range M, κ' j k * w k) + h * ∑ k ∈ Finset.range M, γ k * w k := by
  have h1 : ∑ k ∈ Finset.range M, (α * ∑ j ∈ Finset.range n', T j * κ' j k + γ k) * w k =
      α * ∑ j ∈ Finset.range n', T j * ∑ k ∈ Finset.range M, κ' j k * w k + ∑ k ∈ Finset.range M, γ k * w k := by
    simp only [add_mul, Finset.sum_add_distrib]
    congr 1
    simp only [Finset.mul_sum, Finset.sum_mul]
    rw [Finset.sum_comm]
    exact Finset.sum_congr rfl fun j _ => Finset.sum_congr rfl fun k _ => by ring
  rw [h1, mul_add]
  congr 1
  simp only [Finset.mul_sum]
  exact Finset.sum_congr rfl fun j _ => Finset.sum_congr rfl fun k _ => by ring

variable (fresh fresh' freshI freshI' : String → ℕ) (casadiPoints : ℕ → String → Except PyErr (List K))
    (csFunction : List (MXExpr K) → List (MXExpr K) → Except PyErr (CsFn K))
    (dae dae' : DaeObj K) (t t' : List K) (order : ℕ) (method : String) (tdp_fun tdp_fun' : Option (K → Mat K))
    (d d' : DaeObj K) (xdot res xdot' res' : MXExpr K) (tau : List K) (F F' : CsFn K) (rep : Bool) (s s' : Scheme K)

/-- **C130** A change of variables and of time that takes solutions of one model (with a property `S`) to solutions of another
takes solutions of the collocation equations of the first (with `S` at the collocation points) to solutions of the collocation
equations of the second (polynomials of time: of a degree up to the number of collocation points); times and states at the collocation points and quadratures are related in the same way. -/
theorem C130_change (hcs : IsCsFunction csFunction)
    (pre : SchemePre freshI casadiPoints csFunction dae t order method tdp_fun d xdot res tau F)
    (pre' : SchemePre freshI' casadiPoints csFunction dae' t' order method tdp_fun' d' xdot' res' tau F')
    (hs : Scheme.new fresh freshI casadiPoints csFunction dae t order method tdp_fun rep = .ok s)
    (hs' : Scheme.new fresh' freshI' casadiPoints csFunction dae' t' order method tdp_fun' rep = .ok s')
    (hd : tau.Nodup) (m : Change K) (S : Env K → K → Prop) (hm : m.Model S d d' xdot xdot' res res' tdp_fun tdp_fun')
    (hg : ∀ i < d.nx, (m.g i).degree ≤ order) (hG : ∀ i < d.nq, (m.G i).degree ≤ order)
    (ht : t' = t.map fun τ => m.α * τ + m.β) (env env' : Env K) (hf : m.Follows s s' d d' rep env env')
    (h : ∀ v ∈ s'.eq.vals env', v = 0)
    (hS : ∀ c < s.N * s.M, ∀ e', AtPoint s' d' xdot' tdp_fun' rep env' e' c → S e' (nd s.tc c)) :
    (∀ v ∈ s.eq.vals env, v = 0) ∧
    (∀ c < s.N * s.M, nd s'.tc c = m.α * nd s.tc c + m.β) ∧
    (∀ c < s.N * s.M, ∀ i < d.nx, s.X.val env i c =
      ∑ j ∈ Finset.range d'.nx, m.T i j * s'.X.val env' j c + (m.g i).eval (nd s.tc c)) ∧
    (∀ n ≤ s.N, ∀ i < d.nq, s.q.val env i n =
      ∑ k ∈ Finset.range d'.nq, m.W i k * s'.q.val env' k n + ((m.G i).eval (nd t n) - (m.G i).eval (nd t 0))) ∧
    (∀ c < s.N * s.M, ∀ i < d.nq, s.Q.val env i c =
      ∑ k ∈ Finset.range d'.nq, m.W i k * s'.Q.val env' k c + ((m.G i).eval (nd s.tc c) - (m.G i).eval (nd t 0))) := by
  have b := pre.built hs
  have b' := pre'.built hs'
  have hlen := pre.len
  have hpos := pre.pos
  have hposτ : 0 < tau.length := by omega
  have hN : t'.length = t.length := by rw [ht, List.length_map]
  have hnd : ∀ n < t.length, nd t' n = m.α * nd t n + m.β := by
    intro n hn
    simp [ht, nd, List.getD_eq_getElem?_getD, hn]
  have hstep : ∀ n < t.length - 1, nd t' (n + 1) - nd t' n = m.α * (nd t (n + 1) - nd t n) := by
    intro n hn
    rw [hnd _ (by omega), hnd _ (by omega)]
    ring
  have hsplit : ∀ c < (t.length - 1) * order, ∃ n j, n < t.length - 1 ∧ j < order ∧ c = n * order + j := by
    intro c hc
    refine ⟨c / order, c % order, Nat.div_lt_of_lt_mul (by rwa [Nat.mul_comm]), Nat.mod_lt _ hpos, ?_⟩
    rw [Nat.mul_comm]; exact (Nat.div_add_mod c order).symm
  have htc : ∀ n < t.length - 1, ∀ j < order, nd s'.tc (n * order + j) = m.α * nd s.tc (n * order + j) + m.β := by
    intro n hn j hj
    rw [b'.tc n j (by omega) hj, b.tc n j hn hj, hstep n hn, hnd n (by omega)]
    ring
  have fx := hf.x
  have fk := hf.k
  rw [b.N_eq, b.t_eq] at fx
  rw [b.N_eq, b.M_eq] at fk
  have ex : ∀ i n, s.x.val env i n = env (fresh "x") i n := fun i n => by rw [b.x]; rfl
  have ex' : ∀ i n, s'.x.val env' i n = env' (fresh' "x") i n := fun i n => by rw [b'.x]; rfl
  have ek : ∀ i n, s.Kd.val env i n = env (fresh "K") i n := fun i n => by rw [b.Kd]; rfl
  have ek' : ∀ i n, s'.Kd.val env' i n = env' (fresh' "K") i n := fun i n => by rw [b'.Kd]; rfl
  have hK : ∀ n < t.length - 1, ∀ i < d.nx, ∀ w : ℕ → K,
      (nd t (n + 1) - nd t n) * ∑ k ∈ Finset.range order, env (fresh "K") i (n * order + k) * w k =
        ∑ l ∈ Finset.range d'.nx, m.T i l * (m.α * (nd t (n + 1) - nd t n) *
          ∑ k ∈ Finset.range order, env' (fresh' "K") l (n * order + k) * w k) +
        (nd t (n + 1) - nd t n) * ∑ k ∈ Finset.range order,
          (derivative (m.g i)).eval (nd t n + (nd t (n + 1) - nd t n) * nd tau k) * w k := by
    intro n hn i hi w
    rw [← change_sum]
    congr 1
    refine Finset.sum_congr rfl fun k hk => ?_
    have hk := Finset.mem_range.mp hk
    rw [← ek, fk (n * order + k) (block_lt hn hk) i hi, b.tc n k hn hk]
    simp only [ek']
  have hX : ∀ n < t.length - 1, ∀ j < order, ∀ i < d.nx, s.X.val env i (n * order + j) =
      ∑ l ∈ Finset.range d'.nx, m.T i l * s'.X.val env' l (n * order + j) + (m.g i).eval (nd s.tc (n * order + j)) := by
    intro n hn j hj i hi
    have hw := wA_affine hd (nd t n) (nd t (n + 1) - nd t n) (P := m.g i) (by rw [hlen]; exact hg i hi) hposτ j
    rw [hlen] at hw
    rw [b.X env i n j hn hj, ← ex, fx n (by omega) i hi, b.tc n j hn hj,
      hK n hn i hi, hw]
    simp only [b'.X env' _ n j (by omega) hj, hstep n hn, ex', mul_add, Finset.sum_add_distrib]
    ring
  have hcont : ∀ n < t.length - 1, ∀ i < d.nx, s.eqContinuity.val env i n =
      ∑ l ∈ Finset.range d'.nx, m.T i l * s'.eqContinuity.val env' l n := by
    intro n hn i hi
    have hw := wb_affine hd (nd t n) (nd t (n + 1) - nd t n) (P := m.g i) (by rw [hlen]; exact hg i hi) hposτ
    rw [hlen, add_sub_cancel] at hw
    rw [b.cont env i n hn, ← ex, ← ex, fx n (by omega) i hi, fx (n + 1) (by omega) i hi,
      hK n hn i hi, hw]
    simp only [b'.cont env' _ n (by omega), hstep n hn, ex', mul_add, mul_sub, Finset.sum_add_distrib, Finset.sum_sub_distrib]
    ring
  have hnp : d.np = d.p.rows := by simp [DaeObj.np, MXExpr.numel, pre.p]
  have hnp' : d'.np = d'.p.rows := by simp [DaeObj.np, MXExpr.numel, pre'.p]
  have hnq : d.nq = d.quad.rows := by simp [DaeObj.nq, MXExpr.numel, pre.quad]
  have hnq' : d'.nq = d'.quad.rows := by simp [DaeObj.nq, MXExpr.numel, pre'.quad]
  obtain ⟨h1, h2, h3⟩ := (Scheme.eq_zero_iff pre' b' env').mp h
  rw [hN] at h1 h2 h3
  have hrel : ∀ n < t.length - 1, ∀ j < order, (∀ i < res.rows, s.eqCollocation.val env i (n * order + j) = 0) ∧
      ∀ i < d.nq, s.quad.val env i (n * order + j) = m.α * ∑ k ∈ Finset.range d'.nq, m.W i k * s'.quad.val env' k (n * order + j) +
        (derivative (m.G i)).eval (nd s.tc (n * order + j)) := by
    intro n hn j hj
    have hc : n * order + j < (t.length - 1) * order := block_lt hn hj
    have hc' : n * order + j < (t'.length - 1) * order := by rw [hN]; exact hc
    have hcs2 : n * order + j < s.N * s.M := by rw [b.N_eq, b.M_eq]; exact hc
    obtain ⟨e, hat⟩ := exists_atPoint hcs pre b.toCore env hc
    obtain ⟨e', hat'⟩ := exists_atPoint hcs pre' b'.toCore env' hc'
    have o := hat.out hcs pre b.toCore hc
    have o' := hat'.out hcs pre' b'.toCore hc'
    have hr : m.AtTime d d' xdot xdot' tdp_fun tdp_fun' e e' (nd s.tc (n * order + j)) := by
      refine ⟨?_, ?_, ?_, ?_, ?_, hat.t, ?_, fun f hfn i hi l hl => hat.tdp f hfn i hi l hl, ?_⟩
      · intro i hi
        rw [hat.xdot i (by rw [← pre.wf.nx]; exact hi), fk _ hc i hi]
        congr 2
        exact Finset.sum_congr rfl fun l hl => by
          rw [hat'.xdot l (by rw [← pre'.wf.nx]; exact Finset.mem_range.mp hl)]
      · intro i hi
        rw [hat.x i (by rw [← pre.wf.nx]; exact hi), hX n hn j hj i hi]
        congr 1
        exact Finset.sum_congr rfl fun l hl => by
          rw [hat'.x l (by rw [← pre'.wf.nx]; exact Finset.mem_range.mp hl)]
      · intro i hi
        rw [hat.z i (by rw [← pre.wf.nz]; exact hi), hf.z _ hcs2 i hi, hat'.z _ (by rw [← pre'.wf.nz]; exact hm.sz i hi)]
      · intro i hi
        rw [hat.u i (by rw [← pre.wf.nu]; exact hi), hat'.u _ (by rw [← pre'.wf.nu]; exact hm.su i hi), b.M_eq, b'.M_eq,
          div_block hj, hf.u n (by rw [b.N_eq]; exact hn) i hi]
      · intro i hi
        rw [hat.p i (by rw [← hnp]; exact hi), hat'.p _ (by rw [← hnp']; exact hm.sp i hi)]
        exact hf.p _ (by split_ifs; exacts [hcs2, Nat.one_pos]) i hi
      · rw [hat'.t, htc n hn j hj]
      · intro f hfn i hi l hl
        rw [hat'.tdp f hfn i hi l hl, htc n hn j hj]
    have hSe := hS _ hcs2 e' hat'
    have hz' : ResidualZero res' e' := by
      intro i hi l hl
      rw [pre'.wf.res_cols] at hl
      obtain rfl : l = 0 := by omega
      rw [← o'.1 i hi]
      exact h1 _ hc i hi
    constructor
    · intro i hi
      rw [o.1 i hi]
      exact hm.res e e' _ hr hSe hz' i hi 0 (by rw [pre.wf.res_cols]; exact Nat.one_pos)
    · intro i hi
      rw [o.2 i (hnq ▸ hi), hm.quad e e' _ hr hSe hz' i hi]
      congr 2
      exact Finset.sum_congr rfl fun k hk => by rw [o'.2 k (hnq' ▸ Finset.mem_range.mp hk)]
  have hQs : ∀ n < t.length - 1, ∀ i < d.nq, ∀ w : ℕ → K,
      (nd t (n + 1) - nd t n) * ∑ k ∈ Finset.range order, s.quad.val env i (n * order + k) * w k =
        ∑ l ∈ Finset.range d'.nq, m.W i l * (m.α * (nd t (n + 1) - nd t n) *
          ∑ k ∈ Finset.range order, s'.quad.val env' l (n * order + k) * w k) +
        (nd t (n + 1) - nd t n) * ∑ k ∈ Finset.range order,
          (derivative (m.G i)).eval (nd t n + (nd t (n + 1) - nd t n) * nd tau k) * w k := by
    intro n hn i hi w
    rw [← change_sum]
    congr 1
    refine Finset.sum_congr rfl fun k hk => ?_
    have hk := Finset.mem_range.mp hk
    rw [(hrel n hn k hk).2 i hi, b.tc n k hn hk]
  have hq : ∀ n ≤ t.length - 1, ∀ i < d.nq, s.q.val env i n =
      ∑ k ∈ Finset.range d'.nq, m.W i k * s'.q.val env' k n + ((m.G i).eval (nd t n) - (m.G i).eval (nd t 0)) := by
    intro n
    induction n with
    | zero =>
      intro _ i _
      simp [b.q_zero, b'.q_zero]
    | succ n ih =>
      intro hn i hi
      have hw := wb_affine hd (nd t n) (nd t (n + 1) - nd t n) (P := m.G i) (by rw [hlen]; exact hG i hi) hposτ
      rw [hlen, add_sub_cancel] at hw
      rw [b.q env i n (by omega), ih (by omega) i hi, hQs n (by omega) i hi, hw]
      simp only [b'.q env' _ n (by omega), hstep n (by omega), mul_add, Finset.sum_add_distrib]
      ring
  refine ⟨(Scheme.eq_zero_iff pre b env).mpr ⟨?_, ?_, ?_⟩, ?_, ?_, ?_, ?_⟩
  · intro c hc i hi
    obtain ⟨n, j, hn, hj, rfl⟩ := hsplit c hc
    exact (hrel n hn j hj).1 i hi
  · intro n hn i hi
    rw [hcont n hn i hi, Finset.sum_eq_zero]
    intro l hl
    rw [h2 n hn l (Finset.mem_range.mp hl), mul_zero]
  · intro hr c hc i hi
    subst hr
    have hp := hf.p
    simp only [if_true] at hp
    rw [b.N_eq, b.M_eq] at hp
    rw [hp c hc i hi, hp 0 (by omega) i hi, h3 rfl c hc _ (hm.sp i hi)]
  · rw [b.N_eq, b.M_eq]
    intro c hc
    obtain ⟨n, j, hn, hj, rfl⟩ := hsplit c hc
    exact htc n hn j hj
  · rw [b.N_eq, b.M_eq]
    intro c hc i hi
    obtain ⟨n, j, hn, hj, rfl⟩ := hsplit c hc
    exact hX n hn j hj i hi
  · rw [b.N_eq]
    exact hq
  · rw [b.N_eq, b.M_eq]
    intro c hc i hi
    obtain ⟨n, j, hn, hj, rfl⟩ := hsplit c hc
    have hw := wA_affine hd (nd t n) (nd t (n + 1) - nd t n) (P := m.G i) (by rw [hlen]; exact hG i hi) hposτ j
    rw [hlen] at hw
    rw [b.Q env i n j hn hj, hq n (by omega) i hi, b.tc n j hn hj, hQs n hn i hi, hw]
    simp only [b'.Q env' _ n j (by omega) hj, hstep n hn, mul_add, Finset.sum_add_distrib]
    ring

/-- The same model on two grids of the same length. -/
theorem SchemePre.regrid {freshI : String → ℕ} {casadiPoints : ℕ → String → Except PyErr (List K)}
    {csFunction : List (MXExpr K) → List (MXExpr K) → Except PyErr (CsFn K)}
    {dae d : DaeObj K} {t t' : List K} {order : ℕ} {method : String} {tdp_fun : Option (K → Mat K)}
    {xdot res : MXExpr K} {tau : List K} {F : CsFn K}
    (pre : SchemePre freshI casadiPoints csFunction dae t order method tdp_fun d xdot res tau F) (h : t'.length = t.length) :
    SchemePre freshI casadiPoints csFunction dae t' order method tdp_fun d xdot res tau F :=
  ⟨pre.impl, pre.wf, pre.p, pre.quad, by rw [h]; exact pre.two, pre.pos, pre.points, pre.len, pre.tdpFun, pre.fn⟩

/-- Rows `x0, x0 + 1, …` of the states, `q0, …` of the quadratures and `z0, …` of the algebraic states; inputs, parameters and
time as they are, except for a shift of time. -/
noncomputable def Change.rows (x0 q0 z0 : ℕ) (β : K) : Change K where
  α := 1
  β := β
  T i j := if j = x0 + i then 1 else 0
  g _ := 0
  W i j := if j = q0 + i then 1 else 0
  G _ := 0
  sz i := z0 + i
  su i := i
  sp i := i

omit [DecidableEq K] [CharZero K] in
theorem rows_sum {n k : ℕ} (h : k < n) (f : ℕ → K) :
    ∑ j ∈ Finset.range n, (if j = k then 1 else 0) * f j = f k := by
  rw [Finset.sum_eq_single_of_mem k (Finset.mem_range.mpr h)]
  · rw [if_pos rfl, one_mul]
  · intro j _ hj
    rw [if_neg hj, zero_mul]

/-! ## Shift of time -/

/-- The model does not depend on time: whether the residual vanishes, and then the quadrature expression, follow from the values
of the other symbols. -/
def Autonomous (d : DaeObj K) (xdot res : MXExpr K) : Prop :=
  ∀ env env', (∀ i < d.nx, xdot.val env i 0 = xdot.val env' i 0) → (∀ i < d.nx, d.x.val env i 0 = d.x.val env' i 0) →
    (∀ i < d.nz, d.z.val env i 0 = d.z.val env' i 0) → (∀ i < d.nu, d.u.val env i 0 = d.u.val env' i 0) →
    (∀ i < d.np, d.p.val env i 0 = d.p.val env' i 0) → ResidualZero res env' →
    ResidualZero res env ∧ ∀ i < d.nq, d.quad.val env i 0 = d.quad.val env' i 0

theorem Autonomous.model {d : DaeObj K} {xdot res : MXExpr K} (h : Autonomous d xdot res) (tdp_fun : Option (K → Mat K)) (β : K) :
    (Change.rows 0 0 0 β).Model (fun _ _ => True) d d xdot xdot res res tdp_fun tdp_fun := by
  have key : ∀ env env' τ, (Change.rows 0 0 0 β).AtTime d d xdot xdot tdp_fun tdp_fun env env' τ → ResidualZero res env' →
      ResidualZero res env ∧ ∀ i < d.nq, d.quad.val env i 0 = d.quad.val env' i 0 := by
    intro env env' τ ha hz
    refine h env env' (fun i hi => ?_) (fun i hi => ?_) (fun i hi => ?_) ha.u ha.p hz
    · have := ha.xdot i hi
      simp only [Change.rows, Nat.zero_add, derivative_zero, eval_zero, add_zero, one_mul] at this
      rw [rows_sum hi] at this
      exact this
    · have := ha.x i hi
      simp only [Change.rows, Nat.zero_add, eval_zero, add_zero] at this
      rw [rows_sum hi] at this
      exact this
    · have := ha.z i hi
      simp only [Change.rows, Nat.zero_add] at this
      exact this
  refine ⟨fun i hi => by simpa [Change.rows] using hi, fun i hi => hi, fun i hi => hi, fun env env' τ ha _ hz => (key env env' τ ha hz).1,
    fun env env' τ ha _ hz i hi => ?_⟩
  rw [(key env env' τ ha hz).2 i hi]
  simp only [Change.rows, Nat.zero_add, derivative_zero, eval_zero, add_zero, one_mul]
  rw [rows_sum hi]

/-- **C130** (shift) The collocation equations of a model that does not depend on time are the same on a shifted grid, with the
same states at the collocation points and the same quadratures. -/
theorem C130_shift (hcs : IsCsFunction csFunction)
    (pre : SchemePre freshI casadiPoints csFunction dae t order method tdp_fun d xdot res tau F)
    (β : K) (ht : t' = t.map (· + β))
    (hs : Scheme.new fresh freshI casadiPoints csFunction dae t order method tdp_fun rep = .ok s)
    (hs' : Scheme.new fresh freshI casadiPoints csFunction dae t' order method tdp_fun rep = .ok s')
    (hd : tau.Nodup) (ha : Autonomous d xdot res) (env : Env K) :
    ((∀ v ∈ s'.eq.vals env, v = 0) ↔ ∀ v ∈ s.eq.vals env, v = 0) ∧
    ((∀ v ∈ s.eq.vals env, v = 0) →
      (∀ c < s.N * s.M, ∀ i < d.nx, s'.X.val env i c = s.X.val env i c) ∧
      (∀ n ≤ s.N, ∀ i < d.nq, s'.q.val env i n = s.q.val env i n)) := by
  have hlen : t'.length = t.length := by rw [ht, List.length_map]
  have key : ∀ (β : K) (t t' : List K) (s s' : Scheme K), t' = t.map (· + β) →
      SchemePre freshI casadiPoints csFunction dae t order method tdp_fun d xdot res tau F →
      Scheme.new fresh freshI casadiPoints csFunction dae t order method tdp_fun rep = .ok s →
      Scheme.new fresh freshI casadiPoints csFunction dae t' order method tdp_fun rep = .ok s' →
      (∀ v ∈ s'.eq.vals env, v = 0) → (∀ v ∈ s.eq.vals env, v = 0) ∧
      (∀ c < s.N * s.M, ∀ i < d.nx, s.X.val env i c = s'.X.val env i c) ∧
      (∀ n ≤ s.N, ∀ i < d.nq, s.q.val env i n = s'.q.val env i n) := by
    intro β t t' s s' ht pre hs hs' h
    have hlen : t'.length = t.length := by rw [ht, List.length_map]
    have pre' := pre.regrid hlen
    have b := pre.built hs
    have b' := pre'.built hs'
    have hf : (Change.rows 0 0 0 β).Follows s s' d d rep env env := by
      refine ⟨?_, ?_, ?_, ?_, ?_⟩
      · intro n _ i hi
        simp only [Change.rows, Nat.zero_add, eval_zero, add_zero]
        rw [rows_sum hi, b.x, b'.x]; rfl
      · intro c _ i hi
        simp only [Change.rows, Nat.zero_add, derivative_zero, eval_zero, add_zero, one_mul]
        rw [rows_sum hi, b.Kd, b'.Kd]; rfl
      · intro c _ i _
        simp only [Change.rows, Nat.zero_add]
        rw [b.Z, b'.Z]; rfl
      · intro n _ i _
        show s.u.val env i n = s'.u.val env i n
        rw [b.u, b'.u]; rfl
      · intro c _ i _
        show s.p.val env i c = s'.p.val env i c
        rw [b.p, b'.p]; rfl
    obtain ⟨h1, -, h2, h3, -⟩ := C130_change fresh fresh freshI freshI casadiPoints csFunction dae dae t t' order method tdp_fun tdp_fun
      d d xdot res xdot res tau F F rep s s' hcs pre pre' hs hs' hd _ _ (ha.model tdp_fun β)
      (fun i _ => by simp [Change.rows]) (fun i _ => by simp [Change.rows]) (by simp [ht, Change.rows]) env env hf h
      (fun _ _ _ _ => trivial)
    refine ⟨h1, fun c hc i hi => ?_, fun n hn i hi => ?_⟩
    · rw [h2 c hc i hi]
      simp only [Change.rows, Nat.zero_add, eval_zero, add_zero]
      rw [rows_sum hi]
    · rw [h3 n hn i hi]
      simp only [Change.rows, Nat.zero_add, eval_zero, add_zero, sub_self]
      rw [rows_sum hi]
  have hb : t = t'.map (· + -β) := by rw [ht]; simp
  have b := pre.built hs
  have b' := (pre.regrid hlen).built hs'
  have k1 := key β t t' s s' ht pre hs hs'
  have k2 := key (-β) t' t s' s hb (pre.regrid hlen) hs' hs
  refine ⟨⟨fun h => (k1 h).1, fun h => (k2 h).1⟩, fun h => ?_⟩
  have := (k2 h).2
  rw [b'.N_eq, b'.M_eq, hlen] at this
  rw [b.N_eq, b.M_eq]
  exact this

/-! ## Time as a state -/

/-- The model `d'` is the model `d` with time replaced by an additional last state that runs like a clock. -/
structure Clock (d d' : DaeObj K) (xdot xdot' res res' : MXExpr K) : Prop where
  nx : d'.nx = d.nx + 1
  nz : d'.nz = d.nz
  nu : d'.nu = d.nu
  np : d'.np = d.np
  nq : d'.nq = d.nq
  rate : ∀ env', ResidualZero res' env' → xdot'.val env' d.nx 0 = 1
  model : ∀ env env', (∀ i < d.nx, xdot.val env i 0 = xdot'.val env' i 0) → (∀ i < d.nx, d.x.val env i 0 = d'.x.val env' i 0) →
    (∀ i < d.nz, d.z.val env i 0 = d'.z.val env' i 0) → (∀ i < d.nu, d.u.val env i 0 = d'.u.val env' i 0) →
    (∀ i < d.np, d.p.val env i 0 = d'.p.val env' i 0) → d.t.val env 0 0 = d'.x.val env' d.nx 0 →
    (ResidualZero res' env' ↔ ResidualZero res env ∧ xdot'.val env' d.nx 0 = 1) ∧
    ∀ i < d.nq, d.quad.val env i 0 = d'.quad.val env' i 0

/-- The inclusion of the states in the states with the clock. -/
noncomputable def Change.clock (n : ℕ) : Change K where
  α := 1
  β := 0
  T i j := if i < n ∧ j = i then 1 else 0
  g i := if i = n then X else 0
  W i j := if j = i then 1 else 0
  G _ := 0
  sz i := i
  su i := i
  sp i := i

/-- The variables of the scheme with the clock agree with those of the scheme. -/
structure SameButClock (s s' : Scheme K) (d : DaeObj K) (rep : Bool) (env env' : Env K) : Prop where
  x : ∀ n ≤ s.N, ∀ i < d.nx, s'.x.val env' i n = s.x.val env i n
  k : ∀ c < s.N * s.M, ∀ i < d.nx, s'.Kd.val env' i c = s.Kd.val env i c
  z : ∀ c < s.N * s.M, ∀ i < d.nz, s'.Z.val env' i c = s.Z.val env i c
  u : ∀ n < s.N, ∀ i < d.nu, s'.u.val env' i n = s.u.val env i n
  p : ∀ c < (if rep then s.N * s.M else 1), ∀ i < d.np, s'.p.val env' i c = s.p.val env i c

/-- **C130** (time as a state) A model with time replaced by a state with derivative 1 has the same collocation equations, if
that state starts at the first time of the grid: it then has the value of time at all points. -/
theorem C130_clock (hcs : IsCsFunction csFunction)
    (pre : SchemePre freshI casadiPoints csFunction dae t order method none d xdot res tau F)
    (pre' : SchemePre freshI' casadiPoints csFunction dae' t order method none d' xdot' res' tau F')
    (hs : Scheme.new fresh freshI casadiPoints csFunction dae t order method none rep = .ok s)
    (hs' : Scheme.new fresh' freshI' casadiPoints csFunction dae' t order method none rep = .ok s')
    (hd : tau.Nodup) (hc : Clock d d' xdot xdot' res res') (env env' : Env K) (hf : SameButClock s s' d rep env env')
    (h0 : s'.x.val env' d.nx 0 = nd t 0) :
    (∀ v ∈ s'.eq.vals env', v = 0) ↔ (∀ v ∈ s.eq.vals env, v = 0) ∧
      (∀ n ≤ s.N, s'.x.val env' d.nx n = nd t n) ∧ ∀ c < s.N * s.M, s'.Kd.val env' d.nx c = 1 := by
  have b := pre.built hs
  have b' := pre'.built hs'
  have hlen := pre.len
  have hpos := pre.pos
  have hposτ : 0 < tau.length := by omega
  have hN : s'.N = s.N := by rw [b.N_eq, b'.N_eq]
  have hM : s'.M = s.M := by rw [b.M_eq, b'.M_eq]
  have htc : ∀ c < s.N * s.M, nd s'.tc c = nd s.tc c := by
    rw [b.N_eq, b.M_eq]
    intro c hcl
    have hn : c / order < t.length - 1 := Nat.div_lt_of_lt_mul (by rwa [Nat.mul_comm])
    have hj := Nat.mod_lt c hpos
    have e : c = c / order * order + c % order := by rw [Nat.mul_comm]; exact (Nat.div_add_mod c order).symm
    rw [e, b.tc _ _ hn hj, b'.tc _ _ hn hj]
  constructor
  · intro h
    have hK : ∀ c < s.N * s.M, s'.Kd.val env' d.nx c = 1 := by
      intro c hcl
      rw [b.N_eq, b.M_eq] at hcl
      obtain ⟨e', hat'⟩ := exists_atPoint hcs pre' b'.toCore env' hcl
      have o' := hat'.out hcs pre' b'.toCore hcl
      have h1 := ((Scheme.eq_zero_iff pre' b' env').mp h).1 c hcl
      rw [← hat'.xdot d.nx (by rw [← pre'.wf.nx, hc.nx]; omega)]
      refine hc.rate e' fun i hi l hl => ?_
      rw [pre'.wf.res_cols] at hl
      obtain rfl : l = 0 := by omega
      rw [← o'.1 i hi]
      exact h1 i hi
    have hKe : ∀ c < (t.length - 1) * order, env' (fresh' "K") d.nx c = 1 := by
      intro c hcl
      rw [← hK c (by rw [b.N_eq, b.M_eq]; exact hcl), b'.Kd]; rfl
    have hxe : ∀ n, s'.x.val env' d.nx n = env' (fresh' "x") d.nx n := fun n => by rw [b'.x]; rfl
    have hXd : (X : K[X]).degree ≤ tau.length := by
      rw [degree_X]; exact_mod_cast hposτ
    have hx : ∀ n ≤ t.length - 1, s'.x.val env' d.nx n = nd t n := by
      intro n
      induction n with
      | zero => intro _; exact h0
      | succ n ih =>
        intro hn
        have h2 := ((Scheme.eq_zero_iff pre' b' env').mp h).2.1 n (by omega) d.nx (by rw [hc.nx]; omega)
        have hw := wb_affine hd (nd t n) (nd t (n + 1) - nd t n) hXd hposτ
        simp only [derivative_X, eval_one, eval_X, one_mul, hlen] at hw
        have hsum : ∑ k ∈ Finset.range order, env' (fresh' "K") d.nx (n * order + k) * wb tau k =
            ∑ k ∈ Finset.range order, wb tau k := Finset.sum_congr rfl fun k hk => by
          rw [hKe _ (block_lt (by omega) (Finset.mem_range.mp hk)), one_mul]
        rw [b'.cont env' d.nx n (by omega), hsum, hw, ← hxe, ← hxe, ih (by omega)] at h2
        linear_combination -h2
    have hX : ∀ c < s.N * s.M, s'.X.val env' d.nx c = nd s.tc c := by
      rw [b.N_eq, b.M_eq]
      intro c hcl
      have hn : c / order < t.length - 1 := Nat.div_lt_of_lt_mul (by rwa [Nat.mul_comm])
      have hj := Nat.mod_lt c hpos
      have e : c = c / order * order + c % order := by rw [Nat.mul_comm]; exact (Nat.div_add_mod c order).symm
      generalize c / order = n at hn e
      generalize c % order = j at hj e
      subst e
      have hw := wA_affine hd (nd t n) (nd t (n + 1) - nd t n) hXd hposτ j
      simp only [derivative_X, eval_one, eval_X, one_mul, hlen] at hw
      have hsum : ∑ k ∈ Finset.range order, env' (fresh' "K") d.nx (n * order + k) * wA tau j k =
          ∑ k ∈ Finset.range order, wA tau j k := Finset.sum_congr rfl fun k hk => by
        rw [hKe _ (block_lt hn (Finset.mem_range.mp hk)), one_mul]
      rw [b'.X env' d.nx n j hn hj, b.tc n j hn hj, hsum, hw, ← hxe, hx n (by omega)]
      ring
    refine ⟨?_, by rw [b.N_eq]; exact hx, hK⟩
    have hm : (Change.rows 0 0 0 (0 : K)).Model (fun e' τ => d'.x.val e' d.nx 0 = τ) d d' xdot xdot' res res' none none := by
      have key : ∀ e e' τ, (Change.rows 0 0 0 (0 : K)).AtTime d d' xdot xdot' none none e e' τ → d'.x.val e' d.nx 0 = τ →
          (ResidualZero res' e' ↔ ResidualZero res e ∧ xdot'.val e' d.nx 0 = 1) ∧
            ∀ i < d.nq, d.quad.val e i 0 = d'.quad.val e' i 0 := by
        intro e e' τ ha hτ
        refine hc.model e e' (fun i hi => ?_) (fun i hi => ?_) (fun i hi => ?_) ha.u ha.p (by rw [ha.t, hτ])
        · have := ha.xdot i hi
          simp only [Change.rows, Nat.zero_add, derivative_zero, eval_zero, add_zero, one_mul] at this
          rw [rows_sum (by rw [hc.nx]; omega)] at this
          exact this
        · have := ha.x i hi
          simp only [Change.rows, Nat.zero_add, eval_zero, add_zero] at this
          rw [rows_sum (by rw [hc.nx]; omega)] at this
          exact this
        · have := ha.z i hi
          simp only [Change.rows, Nat.zero_add] at this
          exact this
      refine ⟨fun i hi => by rw [hc.nz]; simpa [Change.rows] using hi, fun i hi => by rw [hc.nu]; exact hi,
        fun i hi => by rw [hc.np]; exact hi, fun e e' τ ha hτ hz => ((key e e' τ ha hτ).1.mp hz).1, fun e e' τ ha hτ hz i hi => ?_⟩
      rw [(key e e' τ ha hτ).2 i hi]
      simp only [Change.rows, Nat.zero_add, derivative_zero, eval_zero, add_zero, one_mul]
      rw [rows_sum (by rw [hc.nq]; exact hi)]
    refine (C130_change fresh fresh' freshI freshI' casadiPoints csFunction dae dae' t t order method none none
      d d' xdot res xdot' res' tau F F' rep s s' hcs pre pre' hs hs' hd _ _ hm
      (fun i _ => by simp [Change.rows]) (fun i _ => by simp [Change.rows]) (by simp [Change.rows]) env env' ⟨?_, ?_, ?_, ?_, ?_⟩ h ?_).1
    · intro n hn i hi
      simp only [Change.rows, Nat.zero_add, eval_zero, add_zero]
      rw [rows_sum (by rw [hc.nx]; omega), hf.x n hn i hi]
    · intro c hcl i hi
      simp only [Change.rows, Nat.zero_add, derivative_zero, eval_zero, add_zero, one_mul]
      rw [rows_sum (by rw [hc.nx]; omega), hf.k c hcl i hi]
    · intro c hcl i hi
      simp only [Change.rows, Nat.zero_add]
      rw [hf.z c hcl i hi]
    · intro n hn i hi; exact (hf.u n hn i hi).symm
    · intro c hcl i hi; exact (hf.p c hcl i hi).symm
    · intro c hcl e' hat'
      rw [hat'.x d.nx (by rw [← pre'.wf.nx, hc.nx]; omega), hX c hcl]
  · rintro ⟨h, hx, hK⟩
    have hsum1 : ∀ (i : ℕ) (f : ℕ → K), i < d.nx →
        ∑ j ∈ Finset.range d.nx, (if i < d.nx ∧ j = i then 1 else 0) * f j = f i := by
      intro i f hi
      simp only [hi, true_and]
      exact rows_sum hi f
    have hsum2 : ∀ (f : ℕ → K), ∑ j ∈ Finset.range d.nx, (if d.nx < d.nx ∧ j = d.nx then 1 else 0) * f j = 0 := by
      intro f
      refine Finset.sum_eq_zero fun j _ => ?_
      rw [if_neg (by omega), zero_mul]
    have hm : (Change.clock d.nx : Change K).Model (fun _ _ => True) d' d xdot' xdot res' res none none := by
      have key : ∀ e' e τ, (Change.clock d.nx : Change K).AtTime d' d xdot' xdot none none e' e τ →
          ((ResidualZero res' e' ↔ ResidualZero res e ∧ xdot'.val e' d.nx 0 = 1) ∧
            ∀ i < d.nq, d.quad.val e i 0 = d'.quad.val e' i 0) ∧ xdot'.val e' d.nx 0 = 1 := by
        intro e' e τ ha
        refine ⟨hc.model e e' (fun i hi => ?_) (fun i hi => ?_) (fun i hi => ?_) (fun i hi => ?_) (fun i hi => ?_) ?_, ?_⟩
        · have := ha.xdot i (by rw [hc.nx]; omega)
          simp only [Change.clock, hi.ne, if_false, derivative_zero, eval_zero, add_zero, one_mul, hsum1 i _ hi] at this
          exact this.symm
        · have := ha.x i (by rw [hc.nx]; omega)
          simp only [Change.clock, hi.ne, if_false, eval_zero, add_zero, hsum1 i _ hi] at this
          exact this.symm
        · exact (ha.z i (by rw [hc.nz]; exact hi)).symm
        · exact (ha.u i (by rw [hc.nu]; exact hi)).symm
        · exact (ha.p i (by rw [hc.np]; exact hi)).symm
        · have := ha.x d.nx (by rw [hc.nx]; omega)
          simp only [Change.clock, if_true, hsum2, zero_add, eval_X] at this
          have ht' := ha.t'
          simp only [Change.clock, one_mul, add_zero] at ht'
          rw [this, ht']
        · have := ha.xdot d.nx (by rw [hc.nx]; omega)
          simpa only [Change.clock, if_true, hsum2, mul_zero, zero_add, derivative_X, eval_one] using this
      refine ⟨fun i hi => by rw [← hc.nz]; exact hi, fun i hi => by rw [← hc.nu]; exact hi, fun i hi => by rw [← hc.np]; exact hi,
        fun e e' τ ha _ hz => ((key e e' τ ha).1.1.mpr ⟨hz, (key e e' τ ha).2⟩), fun e e' τ ha _ hz i hi => ?_⟩
      have hi' : i < d.nq := by rw [← hc.nq]; exact hi
      rw [← (key e e' τ ha).1.2 i hi']
      simp only [Change.clock, derivative_zero, eval_zero, add_zero, one_mul]
      rw [rows_sum hi']
    have hdeg : ∀ i, ((Change.clock d.nx : Change K).g i).degree ≤ order := by
      intro i
      simp only [Change.clock]
      split_ifs
      · rw [degree_X]; exact_mod_cast hpos
      · simp
    refine (C130_change fresh' fresh freshI' freshI casadiPoints csFunction dae' dae t t order method none none
      d' d xdot' res' xdot res tau F' F rep s' s hcs pre' pre hs' hs hd _ _ hm
      (fun i _ => hdeg i) (fun i _ => by simp [Change.clock]) (by simp [Change.clock]) env' env ⟨?_, ?_, ?_, ?_, ?_⟩ h
      (fun _ _ _ _ => trivial)).1
    · intro n hn i hi
      rw [hN] at hn
      rw [hc.nx] at hi
      rcases Nat.lt_succ_iff_lt_or_eq.mp hi with hi | rfl
      · simp only [Change.clock, hi.ne, if_false, eval_zero, add_zero, hsum1 i _ hi]
        exact hf.x n hn i hi
      · simp only [Change.clock, if_true, hsum2, zero_add, eval_X]
        rw [hx n hn, b'.t_eq]
    · intro c hcl i hi
      rw [hN, hM] at hcl
      rw [hc.nx] at hi
      rcases Nat.lt_succ_iff_lt_or_eq.mp hi with hi | rfl
      · simp only [Change.clock, hi.ne, if_false, derivative_zero, eval_zero, add_zero, one_mul, hsum1 i _ hi]
        exact hf.k c hcl i hi
      · simp only [Change.clock, if_true, hsum2, mul_zero, zero_add, derivative_X, eval_one]
        exact hK c hcl
    · intro c hcl i hi
      rw [hN, hM] at hcl
      exact hf.z c hcl i (by rw [← hc.nz]; exact hi)
    · intro n hn i hi
      rw [hN] at hn
      exact hf.u n hn i (by rw [← hc.nu]; exact hi)
    · intro c hcl i hi
      rw [hN, hM] at hcl
      exact hf.p c hcl i (by rw [← hc.np]; exact hi)

/-! ## Models side by side -/

/-- The model `d` consists of the models `d₁` and `d₂` side by side, with the same inputs and parameters. -/
structure Parallel (d₁ d₂ d : DaeObj K) (xdot₁ xdot₂ xdot res₁ res₂ res : MXExpr K) (tdp_fun : Option (K → Mat K)) : Prop where
  nx : d.nx = d₁.nx + d₂.nx
  nz : d.nz = d₁.nz + d₂.nz
  nu : d₁.nu = d.nu ∧ d₂.nu = d.nu
  np : d₁.np = d.np ∧ d₂.np = d.np
  left : (Change.rows 0 0 0 0).Model (fun _ _ => True) d₁ d xdot₁ xdot res₁ res tdp_fun tdp_fun
  right : (Change.rows d₁.nx d₁.nq d₁.nz 0).Model (fun _ _ => True) d₂ d xdot₂ xdot res₂ res tdp_fun tdp_fun
  both : ∀ e₁ e₂ e τ, (Change.rows 0 0 0 0).AtTime d₁ d xdot₁ xdot tdp_fun tdp_fun e₁ e τ →
    (Change.rows d₁.nx d₁.nq d₁.nz 0).AtTime d₂ d xdot₂ xdot tdp_fun tdp_fun e₂ e τ →
    ResidualZero res₁ e₁ → ResidualZero res₂ e₂ → ResidualZero res e

omit [DecidableEq K] [CharZero K] in
/-- At a point where the rows of the variables of two schemes agree, so do the values of the symbols. -/
theorem Change.rows_atTime {x0 q0 z0 : ℕ} {d d' : DaeObj K} {xdot xdot' : MXExpr K} {tdp_fun : Option (K → Mat K)} {e e' : Env K}
    {τ : K} (hx : ∀ i < d.nx, x0 + i < d'.nx)
    (h1 : ∀ i < d.nx, xdot.val e i 0 = xdot'.val e' (x0 + i) 0) (h2 : ∀ i < d.nx, d.x.val e i 0 = d'.x.val e' (x0 + i) 0)
    (h3 : ∀ i < d.nz, d.z.val e i 0 = d'.z.val e' (z0 + i) 0) (h4 : ∀ i < d.nu, d.u.val e i 0 = d'.u.val e' i 0)
    (h5 : ∀ i < d.np, d.p.val e i 0 = d'.p.val e' i 0) (h6 : d.t.val e 0 0 = τ) (h7 : d'.t.val e' 0 0 = τ)
    (h8 : ∀ f, tdp_fun = some f → ∀ i < d.tdp.rows, ∀ j < d.tdp.cols, d.tdp.val e i j = (f τ).e i j)
    (h9 : ∀ f, tdp_fun = some f → ∀ i < d'.tdp.rows, ∀ j < d'.tdp.cols, d'.tdp.val e' i j = (f τ).e i j) :
    (Change.rows x0 q0 z0 (0 : K)).AtTime d d' xdot xdot' tdp_fun tdp_fun e e' τ := by
  refine ⟨fun i hi => ?_, fun i hi => ?_, h3, h4, h5, h6, ?_, h8, ?_⟩
  · simp only [Change.rows, derivative_zero, eval_zero, add_zero, one_mul]
    rw [rows_sum (hx i hi), h1 i hi]
  · simp only [Change.rows, eval_zero, add_zero]
    rw [rows_sum (hx i hi), h2 i hi]
  · simp only [Change.rows, one_mul, add_zero]
    exact h7
  · simp only [Change.rows, one_mul, add_zero]
    exact h9

/-- **C130** (models side by side) The collocation equations of two models side by side are those of the two models. -/
theorem C130_parallel (fresh₁ fresh₂ freshI₁ freshI₂ : String → ℕ) (dae₁ dae₂ d₁ d₂ : DaeObj K)
    (xdot₁ res₁ xdot₂ res₂ : MXExpr K) (F₁ F₂ : CsFn K) (s₁ s₂ : Scheme K) (hcs : IsCsFunction csFunction)
    (pre : SchemePre freshI casadiPoints csFunction dae t order method tdp_fun d xdot res tau F)
    (pre₁ : SchemePre freshI₁ casadiPoints csFunction dae₁ t order method tdp_fun d₁ xdot₁ res₁ tau F₁)
    (pre₂ : SchemePre freshI₂ casadiPoints csFunction dae₂ t order method tdp_fun d₂ xdot₂ res₂ tau F₂)
    (hs : Scheme.new fresh freshI casadiPoints csFunction dae t order method tdp_fun rep = .ok s)
    (hs₁ : Scheme.new fresh₁ freshI₁ casadiPoints csFunction dae₁ t order method tdp_fun rep = .ok s₁)
    (hs₂ : Scheme.new fresh₂ freshI₂ casadiPoints csFunction dae₂ t order method tdp_fun rep = .ok s₂)
    (hd : tau.Nodup) (hp : Parallel d₁ d₂ d xdot₁ xdot₂ xdot res₁ res₂ res tdp_fun) (env env₁ env₂ : Env K)
    (hf₁ : (Change.rows 0 0 0 0).Follows s₁ s d₁ d rep env₁ env)
    (hf₂ : (Change.rows d₁.nx d₁.nq d₁.nz 0).Follows s₂ s d₂ d rep env₂ env) :
    (∀ v ∈ s.eq.vals env, v = 0) ↔ (∀ v ∈ s₁.eq.vals env₁, v = 0) ∧ ∀ v ∈ s₂.eq.vals env₂, v = 0 := by
  have b := pre.built hs
  have b₁ := pre₁.built hs₁
  have b₂ := pre₂.built hs₂
  have hpos := pre.pos
  constructor
  · intro h
    exact ⟨(C130_change fresh₁ fresh freshI₁ freshI casadiPoints csFunction dae₁ dae t t order method tdp_fun tdp_fun
      d₁ d xdot₁ res₁ xdot res tau F₁ F rep s₁ s hcs pre₁ pre hs₁ hs hd _ _ hp.left
      (fun i _ => by simp [Change.rows]) (fun i _ => by simp [Change.rows]) (by simp [Change.rows]) env₁ env hf₁ h
      (fun _ _ _ _ => trivial)).1,
      (C130_change fresh₂ fresh freshI₂ freshI casadiPoints csFunction dae₂ dae t t order method tdp_fun tdp_fun
      d₂ d xdot₂ res₂ xdot res tau F₂ F rep s₂ s hcs pre₂ pre hs₂ hs hd _ _ hp.right
      (fun i _ => by simp [Change.rows]) (fun i _ => by simp [Change.rows]) (by simp [Change.rows]) env₂ env hf₂ h
      (fun _ _ _ _ => trivial)).1⟩
  · rintro ⟨g₁, g₂⟩
    have x₁ : ∀ n ≤ t.length - 1, ∀ i < d₁.nx, env₁ (fresh₁ "x") i n = env (fresh "x") i n := by
      intro n hn i hi
      have := hf₁.x n (by rw [b₁.N_eq]; exact hn) i hi
      simp only [Change.rows, Nat.zero_add, eval_zero, add_zero] at this
      rw [rows_sum (by rw [hp.nx]; omega), b.x, b₁.x] at this
      exact this
    have x₂ : ∀ n ≤ t.length - 1, ∀ i < d₂.nx, env₂ (fresh₂ "x") i n = env (fresh "x") (d₁.nx + i) n := by
      intro n hn i hi
      have := hf₂.x n (by rw [b₂.N_eq]; exact hn) i hi
      simp only [Change.rows, eval_zero, add_zero] at this
      rw [rows_sum (by rw [hp.nx]; omega), b.x, b₂.x] at this
      exact this
    have k₁ : ∀ c < (t.length - 1) * order, ∀ i < d₁.nx, env₁ (fresh₁ "K") i c = env (fresh "K") i c := by
      intro c hc i hi
      have := hf₁.k c (by rw [b₁.N_eq, b₁.M_eq]; exact hc) i hi
      simp only [Change.rows, Nat.zero_add, derivative_zero, eval_zero, add_zero, one_mul] at this
      rw [rows_sum (by rw [hp.nx]; omega), b.Kd, b₁.Kd] at this
      exact this
    have k₂ : ∀ c < (t.length - 1) * order, ∀ i < d₂.nx, env₂ (fresh₂ "K") i c = env (fresh "K") (d₁.nx + i) c := by
      intro c hc i hi
      have := hf₂.k c (by rw [b₂.N_eq, b₂.M_eq]; exact hc) i hi
      simp only [Change.rows, derivative_zero, eval_zero, add_zero, one_mul] at this
      rw [rows_sum (by rw [hp.nx]; omega), b.Kd, b₂.Kd] at this
      exact this
    obtain ⟨h11, h12, h13⟩ := (Scheme.eq_zero_iff pre₁ b₁ env₁).mp g₁
    obtain ⟨h21, h22, h23⟩ := (Scheme.eq_zero_iff pre₂ b₂ env₂).mp g₂
    have hsplit : ∀ i < d.nx, i < d₁.nx ∨ ∃ k < d₂.nx, i = d₁.nx + k := by
      intro i hi
      rw [hp.nx] at hi
      by_cases h : i < d₁.nx
      · exact .inl h
      · exact .inr ⟨i - d₁.nx, by omega, by omega⟩
    refine (Scheme.eq_zero_iff pre b env).mpr ⟨?_, ?_, ?_⟩
    · intro c hc i hi
      obtain ⟨n, j, hn, hj, hcn⟩ : ∃ n j, n < t.length - 1 ∧ j < order ∧ c = n * order + j :=
        ⟨c / order, c % order, Nat.div_lt_of_lt_mul (by rwa [Nat.mul_comm]), Nat.mod_lt _ hpos, by
          rw [Nat.mul_comm]; exact (Nat.div_add_mod c order).symm⟩
      obtain ⟨e, hat⟩ := exists_atPoint hcs pre b.toCore env hc
      obtain ⟨e₁, hat₁⟩ := exists_atPoint hcs pre₁ b₁.toCore env₁ hc
      obtain ⟨e₂, hat₂⟩ := exists_atPoint hcs pre₂ b₂.toCore env₂ hc
      have o := hat.out hcs pre b.toCore hc
      have o₁ := hat₁.out hcs pre₁ b₁.toCore hc
      have o₂ := hat₂.out hcs pre₂ b₂.toCore hc
      have tc₁ : nd s₁.tc c = nd s.tc c := by rw [hcn, b.tc n j hn hj, b₁.tc n j hn hj]
      have tc₂ : nd s₂.tc c = nd s.tc c := by rw [hcn, b.tc n j hn hj, b₂.tc n j hn hj]
      have X₁ : ∀ i < d₁.nx, s₁.X.val env₁ i c = s.X.val env i c := by
        intro i hi
        rw [hcn, b.X env i n j hn hj, b₁.X env₁ i n j hn hj, x₁ n (by omega) i hi]
        congr 2
        exact Finset.sum_congr rfl fun k hk => by rw [k₁ _ (block_lt hn (Finset.mem_range.mp hk)) i hi]
      have X₂ : ∀ i < d₂.nx, s₂.X.val env₂ i c = s.X.val env (d₁.nx + i) c := by
        intro i hi
        rw [hcn, b.X env _ n j hn hj, b₂.X env₂ i n j hn hj, x₂ n (by omega) i hi]
        congr 2
        exact Finset.sum_congr rfl fun k hk => by rw [k₂ _ (block_lt hn (Finset.mem_range.mp hk)) i hi]
      have hnp : d.np = d.p.rows := by simp [DaeObj.np, MXExpr.numel, pre.p]
      have hnp₁ : d₁.np = d₁.p.rows := by simp [DaeObj.np, MXExpr.numel, pre₁.p]
      have hnp₂ : d₂.np = d₂.p.rows := by simp [DaeObj.np, MXExpr.numel, pre₂.p]
      have hnz := hp.nz
      have hnx := hp.nx
      have hr₁ : (Change.rows 0 0 0 0).AtTime d₁ d xdot₁ xdot tdp_fun tdp_fun e₁ e (nd s.tc c) := by
        refine Change.rows_atTime (fun i hi => by rw [hnx]; omega) (fun i hi => ?_) (fun i hi => ?_) (fun i hi => ?_) (fun i hi => ?_)
          (fun i hi => ?_) (by rw [hat₁.t, tc₁]) hat.t (fun f hf i hi l hl => by rw [hat₁.tdp f hf i hi l hl, tc₁]) hat.tdp
        · rw [Nat.zero_add, hat₁.xdot i (by rw [← pre₁.wf.nx]; exact hi), hat.xdot i (by rw [← pre.wf.nx]; omega), b.Kd, b₁.Kd]
          exact k₁ c hc i hi
        · rw [Nat.zero_add, hat₁.x i (by rw [← pre₁.wf.nx]; exact hi), hat.x i (by rw [← pre.wf.nx]; omega), X₁ i hi]
        · rw [hat₁.z i (by rw [← pre₁.wf.nz]; exact hi), hat.z _ (by rw [← pre.wf.nz]; omega)]
          exact hf₁.z c (by rw [b₁.N_eq, b₁.M_eq]; exact hc) i hi
        · rw [hat₁.u i (by rw [← pre₁.wf.nu]; exact hi), hat.u _ (by rw [← pre.wf.nu, ← hp.nu.1]; exact hi), b.M_eq, b₁.M_eq]
          exact hf₁.u _ (by rw [b₁.N_eq]; exact Nat.div_lt_of_lt_mul (by rwa [Nat.mul_comm])) i hi
        · rw [hat₁.p i (by rw [← hnp₁]; exact hi), hat.p _ (by rw [← hnp, ← hp.np.1]; exact hi)]
          exact hf₁.p _ (by split_ifs; exacts [by rw [b₁.N_eq, b₁.M_eq]; exact hc, Nat.one_pos]) i hi
      have hr₂ : (Change.rows d₁.nx d₁.nq d₁.nz 0).AtTime d₂ d xdot₂ xdot tdp_fun tdp_fun e₂ e (nd s.tc c) := by
        refine Change.rows_atTime (fun i hi => by rw [hnx]; omega) (fun i hi => ?_) (fun i hi => ?_) (fun i hi => ?_) (fun i hi => ?_)
          (fun i hi => ?_) (by rw [hat₂.t, tc₂]) hat.t (fun f hf i hi l hl => by rw [hat₂.tdp f hf i hi l hl, tc₂]) hat.tdp
        · rw [hat₂.xdot i (by rw [← pre₂.wf.nx]; exact hi), hat.xdot _ (by rw [← pre.wf.nx]; omega), b.Kd, b₂.Kd]
          exact k₂ c hc i hi
        · rw [hat₂.x i (by rw [← pre₂.wf.nx]; exact hi), hat.x _ (by rw [← pre.wf.nx]; omega), X₂ i hi]
        · rw [hat₂.z i (by rw [← pre₂.wf.nz]; exact hi), hat.z _ (by rw [← pre.wf.nz]; omega)]
          exact hf₂.z c (by rw [b₂.N_eq, b₂.M_eq]; exact hc) i hi
        · rw [hat₂.u i (by rw [← pre₂.wf.nu]; exact hi), hat.u _ (by rw [← pre.wf.nu, ← hp.nu.2]; exact hi), b.M_eq, b₂.M_eq]
          exact hf₂.u _ (by rw [b₂.N_eq]; exact Nat.div_lt_of_lt_mul (by rwa [Nat.mul_comm])) i hi
        · rw [hat₂.p i (by rw [← hnp₂]; exact hi), hat.p _ (by rw [← hnp, ← hp.np.2]; exact hi)]
          exact hf₂.p _ (by split_ifs; exacts [by rw [b₂.N_eq, b₂.M_eq]; exact hc, Nat.one_pos]) i hi
      have z₁ : ResidualZero res₁ e₁ := by
        intro i hi l hl
        rw [pre₁.wf.res_cols] at hl
        obtain rfl : l = 0 := by omega
        rw [← o₁.1 i hi]
        exact h11 _ hc i hi
      have z₂ : ResidualZero res₂ e₂ := by
        intro i hi l hl
        rw [pre₂.wf.res_cols] at hl
        obtain rfl : l = 0 := by omega
        rw [← o₂.1 i hi]
        exact h21 _ hc i hi
      rw [o.1 i hi]
      exact hp.both e₁ e₂ e _ hr₁ hr₂ z₁ z₂ i hi 0 (by rw [pre.wf.res_cols]; exact Nat.one_pos)
    · intro n hn i hi
      rcases hsplit i hi with hi | ⟨k, hk, rfl⟩
      · have := h12 n hn i hi
        rw [b₁.cont env₁ i n hn, x₁ n (by omega) i hi, x₁ (n + 1) (by omega) i hi] at this
        rw [b.cont env i n hn, ← this]
        congr 3
        exact Finset.sum_congr rfl fun k hk => by rw [k₁ _ (block_lt hn (Finset.mem_range.mp hk)) i hi]
      · have := h22 n hn k hk
        rw [b₂.cont env₂ k n hn, x₂ n (by omega) k hk, x₂ (n + 1) (by omega) k hk] at this
        rw [b.cont env _ n hn, ← this]
        congr 3
        exact Finset.sum_congr rfl fun l hl => by rw [k₂ _ (block_lt hn (Finset.mem_range.mp hl)) k hk]
    · intro hr c hc i hi
      subst hr
      have hpp := hf₁.p
      simp only [if_true] at hpp
      rw [b₁.N_eq, b₁.M_eq] at hpp
      have hi₁ : i < d₁.np := by rw [hp.np.1]; exact hi
      have e1 := hpp c hc i hi₁
      have e2 := hpp 0 (by omega) i hi₁
      have := h13 rfl c hc i hi₁
      rw [e1, e2] at this
      exact this

end

/-! ## Non-vacuity -/

/-- The oscillator runs backwards when its second state changes sign: `x0(τ) = x0'(-τ)`, `x1(τ) = -x1'(-τ)`. -/
noncomputable def oscMirror : Change ℚ where
  α := -1
  β := 0
  T i j := if i = j then (if i = 0 then 1 else -1) else 0
  g _ := 0
  W _ _ := 1
  G _ := 0
  sz i := i
  su i := i
  sp i := i

/-- The step of the midpoint rule from 0 to -1. -/
def oscNeg : Env ℚ := fun id i j =>
  if id = 0 then (if i = 0 then nd [1, 3 / 5] j else nd [0, 4 / 5] j)
  else if id = 1 then (if i = 0 then 2 / 5 else -4 / 5) else 0

theorem oscMirror_model (freshI : String → ℕ) : oscMirror.Model (fun _ _ => True) (oscD freshI) (oscD freshI)
    (.sym (freshI "xdot") 2) (.sym (freshI "xdot") 2) (oscRes freshI) (oscRes freshI) none none := by
  refine ⟨fun i hi => hi, fun i hi => hi, fun i hi => hi, fun env env' τ ha _ hz => ?_, fun env env' τ ha _ hz i hi => ?_⟩
  · rw [osc_residual] at hz ⊢
    have k0 := ha.xdot 0 (by show 0 < 2; omega)
    have k1 := ha.xdot 1 (by show 1 < 2; omega)
    have x0 := ha.x 0 (by show 0 < 2; omega)
    have x1 := ha.x 1 (by show 1 < 2; omega)
    change _ = _ * ∑ j ∈ Finset.range 2, _ + _ at k0 k1
    change _ = ∑ j ∈ Finset.range 2, _ + _ at x0 x1
    simp [Finset.sum_range_succ, oscMirror, MXExpr.sym, oscD] at k0 k1 x0 x1
    rw [k0, k1, x0, x1, hz.1, hz.2]
    exact ⟨rfl, rfl⟩
  · have x1 := ha.x 1 (by show 1 < 2; omega)
    change _ = ∑ j ∈ Finset.range 2, _ + _ at x1
    change _ = _ * ∑ j ∈ Finset.range 1, _ + _
    simp [Finset.sum_range_succ, oscMirror, MXExpr.sym, oscD] at x1 ⊢
    exact x1

/-- C130: the mirrored step solves the equations on the grid [0, -1]; its quadrature is that of the step. -/
example (freshI : String → ℕ) (hI : 6 ≤ freshI "xdot") : ∃ s s',
    Scheme.new exFresh freshI (fun _ _ => .ok [1 / 2]) idealCsFunction oscO [0, -1] 1 "legendre" none = .ok s ∧
    Scheme.new exFresh freshI (fun _ _ => .ok [1 / 2]) idealCsFunction oscO [0, 1] 1 "legendre" none = .ok s' ∧
    (∀ v ∈ s.eq.vals oscNeg, v = 0) ∧ s.x.val oscNeg 1 1 = 4 / 5 ∧ s.q.val oscNeg 0 1 = s'.q.val oscEnv 0 1 := by
  obtain ⟨F, -, pre⟩ := osc_pre freshI hI [0, -1] [1 / 2] (by simp) (by simp)
  obtain ⟨F', -, pre'⟩ := osc_pre freshI hI [0, 1] [1 / 2] (by simp) (by simp)
  obtain ⟨s, hs⟩ := C26_constructed exFresh freshI _ _ _ _ _ _ _ _ _ _ _ _ false pre
  obtain ⟨s', hs'⟩ := C26_constructed exFresh freshI _ _ _ _ _ _ _ _ _ _ _ _ false pre'
  have hd : ([1 / 2] : List ℚ).Nodup := by simp
  obtain ⟨-, -, hx', heq⟩ := osc_step freshI (1 / 2) 0 1 (by norm_num) F' (by decide +kernel) (by decide +kernel) pre' s' hs' oscEnv
    (by norm_num [oscEnv]) (by norm_num [oscEnv]) (by norm_num [oscEnv]) (by norm_num [oscEnv])
  have b := pre.built hs
  have b' := pre'.built hs'
  have hx : ∀ i j, s.x.val oscNeg i j = oscNeg 0 i j := fun i j => by rw [b.x]; rfl
  have hN : s.N = 1 := b.N_eq
  have hM : s.M = 1 := b.M_eq
  have hf : oscMirror.Follows s s' (oscD freshI) (oscD freshI) false oscNeg oscEnv := by
    refine ⟨?_, ?_, ?_, ?_, ?_⟩
    · intro n hn i hi
      rw [hN] at hn
      change i < 2 at hi
      change _ = ∑ j ∈ Finset.range 2, _ + _
      rw [hx]
      simp only [hx']
      interval_cases n <;> interval_cases i <;> norm_num [Finset.sum_range_succ, oscNeg, oscEnv, oscMirror]
    · intro c hc i hi
      rw [hN, hM] at hc
      change i < 2 at hi
      obtain rfl : c = 0 := by omega
      change _ = _ * ∑ j ∈ Finset.range 2, _ + _
      rw [b.Kd, b'.Kd]
      simp only [MXExpr.sym, show exFresh "K" = 1 from rfl]
      interval_cases i <;> norm_num [Finset.sum_range_succ, oscNeg, oscEnv, oscMirror]
    · intro c _ i hi; exact absurd hi (Nat.not_lt_zero _)
    · intro c _ i hi; exact absurd hi (Nat.not_lt_zero _)
    · intro c _ i hi; exact absurd hi (Nat.not_lt_zero _)
  obtain ⟨h1, -, -, h2, -⟩ := C130_change exFresh exFresh freshI freshI _ _ _ _ _ _ _ _ _ _ _ _ _ _ _ _ _ F F' false s s'
    idealCsFunction_spec pre pre' hs hs' hd oscMirror _ (oscMirror_model freshI) (fun i _ => by simp [oscMirror])
    (fun i _ => by simp [oscMirror]) (by simp [oscMirror]) oscNeg oscEnv hf heq (fun _ _ _ _ => trivial)
  refine ⟨s, s', hs, hs', h1, by rw [hx]; norm_num [oscNeg], ?_⟩
  have := h2 1 (by rw [hN]) 0 (by show 0 < 1; omega)
  rw [this]
  change ∑ j ∈ Finset.range 1, _ + _ = _
  simp [oscMirror]

/-- C130: the step solves the equations on the grid [5, 6]. -/
example (freshI : String → ℕ) (hI : 6 ≤ freshI "xdot") : ∃ s,
    Scheme.new exFresh freshI (fun _ _ => .ok [1 / 2]) idealCsFunction oscO [5, 6] 1 "legendre" none = .ok s ∧
    (∀ v ∈ s.eq.vals oscEnv, v = 0) ∧ s.x.val oscEnv 0 1 = 3 / 5 := by
  obtain ⟨F, -, pre⟩ := osc_pre freshI hI [0, 1] [1 / 2] (by simp) (by simp)
  obtain ⟨F', -, pre'⟩ := osc_pre freshI hI [5, 6] [1 / 2] (by simp) (by simp)
  obtain ⟨s, hs⟩ := C26_constructed exFresh freshI _ _ _ _ _ _ _ _ _ _ _ _ false pre
  obtain ⟨s', hs'⟩ := C26_constructed exFresh freshI _ _ _ _ _ _ _ _ _ _ _ _ false pre'
  have hd : ([1 / 2] : List ℚ).Nodup := by simp
  obtain ⟨-, -, -, heq⟩ := osc_step freshI (1 / 2) 0 1 (by norm_num) F (by decide +kernel) (by decide +kernel) pre s hs oscEnv
    (by norm_num [oscEnv]) (by norm_num [oscEnv]) (by norm_num [oscEnv]) (by norm_num [oscEnv])
  have ha : Autonomous (oscD freshI) (.sym (freshI "xdot") 2) (oscRes freshI) := by
    intro env env' hk hx _ _ _ hz
    rw [osc_residual] at hz ⊢
    have k0 := hk 0 (by show 0 < 2; omega)
    have k1 := hk 1 (by show 1 < 2; omega)
    have x0 := hx 0 (by show 0 < 2; omega)
    have x1 := hx 1 (by show 1 < 2; omega)
    simp only [MXExpr.sym, oscD] at k0 k1 x0 x1
    exact ⟨⟨by rw [k0, x1, hz.1], by rw [k1, x0, hz.2]⟩, fun i _ => x1⟩
  have := (C130_shift exFresh freshI _ _ _ _ [5, 6] _ _ _ _ _ _ _ F false s s' idealCsFunction_spec pre 5 (by norm_num) hs hs' hd ha
    oscEnv).1.mpr heq
  refine ⟨s', hs', this, ?_⟩
  rw [(pre'.built hs').x]
  norm_num [MXExpr.sym, oscEnv, show exFresh "x" = 0 from rfl]

/-- A model `x' = f` with `n` states. -/
def odeO (n : ℕ) (f : Env K → ℕ → K) : DaeObj K :=
  ⟨.sym 0 n, .sym 1 0, .sym 2 0, .sym 3 0, .sym 4 1, ⟨0, 1, false, fun _ _ _ => 0⟩, .sym 5 0,
    .semi ⟨n, 1, false, fun env i _ => f env i⟩ ⟨0, 1, false, fun _ _ _ => 0⟩⟩

/-- Its residual. -/
def odeRes (freshI : String → ℕ) (n : ℕ) (f : Env K → ℕ → K) : MXExpr K :=
  ⟨n, 1, false, fun env i j => if i < n then env (freshI "xdot") i j - f env i else 0⟩

/-- Its implicit form. -/
def odeD (freshI : String → ℕ) (n : ℕ) (f : Env K → ℕ → K) : DaeObj K :=
  ⟨.sym 0 n, .sym 1 0, .sym 2 0, .sym 3 0, .sym 4 1, ⟨0, 1, false, fun _ _ _ => 0⟩, .sym 5 0,
    .implicit (.sym (freshI "xdot") n) (odeRes freshI n f)⟩

theorem ode_pre (freshI : String → ℕ) (hI : 6 ≤ freshI "xdot") (n : ℕ) (f : Env K → ℕ → K)
    (hf : ∀ e e' : Env K, (∀ i < n, e 0 i 0 = e' 0 i 0) → e 4 0 0 = e' 4 0 0 → ∀ i < n, f e i = f e' i)
    (himp : (odeO n f).makeImplicit freshI = .ok (odeD freshI n f))
    (t tau : List K) (two : 2 ≤ t.length) (pos : 0 < tau.length) :
    ∃ F : CsFn K, SchemePre freshI (fun _ _ => .ok tau) idealCsFunction (odeO n f) t tau.length "legendre" none (odeD freshI n f)
        (.sym (freshI "xdot") n) (odeRes freshI n f) tau F := by
  have hfun := isFunctionOf_syms (K := K) [(freshI "xdot", n, 1), (0, n, 1), (1, 0, 1), (2, 0, 1), (3, 0, 1), (4, 1, 1), (5, 0, 1)]
    (by simp; omega) [odeRes freshI n f, ⟨0, 1, false, fun _ _ _ => 0⟩] (by
      intro o ho env1 env2 h
      simp only [List.mem_cons, List.not_mem_nil, or_false, forall_eq_or_imp, forall_eq] at h ho
      have h0 := hf env1 env2 (fun i hi => h.2.1 i hi 0 (by omega)) (h.2.2.2.2.2.1 0 (by omega) 0 (by omega))
      rcases ho with rfl | rfl
      · refine ⟨rfl, rfl, ?_⟩
        intro i hi j hj
        have hx := h.1 i hi j hj
        simp only [odeRes, MXExpr.at', h0 i hi, hx]
      · exact ⟨rfl, rfl, fun i _ j _ => rfl⟩)
  have hF : ∃ F, idealCsFunction [MXExpr.sym (freshI "xdot") n, .sym 0 n, .sym 1 0, .sym 2 0, .sym 3 0, .sym 4 1, .sym 5 0]
      [odeRes freshI n f, (⟨0, 1, false, fun _ _ _ => 0⟩ : MXExpr K)] = .ok F := by
    unfold idealCsFunction
    rw [dif_pos ⟨_, hfun⟩]
    exact ⟨_, rfl⟩
  obtain ⟨F, hF⟩ := hF
  exact ⟨F, himp, ⟨rfl, rfl, rfl, rfl, ⟨rfl, rfl⟩, rfl, rfl, rfl, rfl⟩, rfl, rfl, two, pos, rfl, rfl, ⟨rfl, rfl⟩, hF⟩

theorem ode_residual (freshI : String → ℕ) (n : ℕ) (f : Env K → ℕ → K) (env : Env K) :
    ResidualZero (odeRes freshI n f) env ↔ ∀ i < n, env (freshI "xdot") i 0 = f env i := by
  constructor
  · intro h i hi
    have := h i hi 0 Nat.one_pos
    simp only [odeRes, hi, if_true] at this
    exact sub_eq_zero.mp this
  · intro h i hi j hj
    obtain rfl : j = 0 := by change j < 1 at hj; omega
    change i < n at hi
    simp only [odeRes, hi, if_true]
    rw [h i hi, sub_self]

/-- One step of the midpoint rule from 0 to 1. -/
theorem ode_step [DecidableEq K] [CharZero K] (freshI : String → ℕ) (n : ℕ) (f : Env K → ℕ → K) (F : CsFn K)
    (hA : wA ([1 / 2] : List K) 0 0 = 1 / 2) (hB : wb ([1 / 2] : List K) 0 = 1)
    (pre : SchemePre freshI (fun _ _ => .ok [1 / 2]) idealCsFunction (odeO n f) [0, 1] 1 "legendre" none (odeD freshI n f)
      (.sym (freshI "xdot") n) (odeRes freshI n f) [1 / 2] F) (s : Scheme K)
    (hs : Scheme.new exFresh freshI (fun _ _ => .ok [1 / 2]) idealCsFunction (odeO n f) [0, 1] 1 "legendre" none = .ok s)
    (env : Env K) (hk : ∀ e : Env K, (∀ i < n, e 0 i 0 = env 0 i 0 + env 1 i 0 * (1 / 2)) → e 4 0 0 = 1 / 2 →
      ∀ i < n, env 1 i 0 = f e i) (hx : ∀ i < n, env 0 i 1 = env 0 i 0 + env 1 i 0) : ∀ v ∈ s.eq.vals env, v = 0 := by
  have b := pre.built hs
  have hn0 : nd ([0, 1] : List K) (0 + 1) - nd ([0, 1] : List K) 0 = 1 := by norm_num
  have hN1 : ([0, 1] : List K).length - 1 = 1 := rfl
  refine (Scheme.eq_zero_iff pre b env).mpr ⟨?_, ?_, fun h => by cases h⟩
  · intro c hc i hi
    have hc0 : c = 0 := by rw [hN1] at hc; omega
    subst hc0
    obtain ⟨e, hat⟩ := exists_atPoint idealCsFunction_spec pre b.toCore env hc
    have o := hat.out idealCsFunction_spec pre b.toCore hc
    rw [o.1 i hi]
    refine (ode_residual freshI n f e).mpr (fun i hi => ?_) i hi 0 Nat.one_pos
    have hxd := hat.xdot i hi
    rw [b.Kd] at hxd
    refine hxd.trans (hk e (fun l hl => ?_) ?_ i hi)
    · refine (hat.x l hl).trans ?_
      have := b.X env l 0 0 (by simp) (by simp)
      simp only [mul_one, zero_add, Finset.sum_range_one, hA] at this
      rw [this]
      norm_num
      rfl
    · refine hat.t.trans ?_
      have := b.tc 0 0 (by simp) (by simp)
      simp only [mul_one, zero_add] at this
      rw [this]
      norm_num
  · intro k hk' i hi
    have hk0 : k = 0 := by rw [hN1] at hk'; omega
    subst hk0
    rw [b.cont env i 0 hk', hn0]
    simp only [Finset.sum_range_one, hB]
    have hi : i < n := by rw [pre.wf.nx] at hi; exact hi
    have := hx i hi
    show env 0 i 0 + 1 * (env 1 i (0 * 1 + 0) * 1) - env 0 i 1 = 0
    rw [this]
    ring

/-- `x' = t`. -/
def rhsT : Env ℚ → ℕ → ℚ := fun env _ => env 4 0 0

/-- `x' = x1`, `x1' = 1`. -/
def rhsC : Env ℚ → ℕ → ℚ := fun env i => if i = 0 then env 0 1 0 else 1

/-- `x' = x`. -/
def rhsX : Env ℚ → ℕ → ℚ := fun env i => env 0 i 0

/-- `x' = t`, `x1' = x1`. -/
def rhsTX : Env ℚ → ℕ → ℚ := fun env i => if i = 0 then env 4 0 0 else env 0 1 0

/-- A step of `x' = t` from 0 to 1/2. -/
def envT : Env ℚ := fun id _ j => if id = 0 then nd [0, 1 / 2] j else if id = 1 then 1 / 2 else 0

/-- The same with the clock. -/
def envC : Env ℚ := fun id i j =>
  if id = 0 then (if i = 0 then nd [0, 1 / 2] j else nd [0, 1] j) else if id = 1 then (if i = 0 then 1 / 2 else 1) else 0

/-- A step of `x' = x` from 1 to 3. -/
def envX : Env ℚ := fun id _ j => if id = 0 then nd [1, 3] j else if id = 1 then 2 else 0

/-- Both steps. -/
def envTX : Env ℚ := fun id i j =>
  if id = 0 then (if i = 0 then nd [0, 1 / 2] j else nd [1, 3] j) else if id = 1 then (if i = 0 then 1 / 2 else 2) else 0

theorem rhsT_dep : ∀ e e' : Env ℚ, (∀ i < 1, e 0 i 0 = e' 0 i 0) → e 4 0 0 = e' 4 0 0 → ∀ i < 1, rhsT e i = rhsT e' i :=
  fun _ _ _ h _ _ => h

/-- C130: `x' = t` and the model with a clock. -/
example (freshI : String → ℕ) (hI : 6 ≤ freshI "xdot") : ∃ s',
    Scheme.new exFresh freshI (fun _ _ => .ok [1 / 2]) idealCsFunction (odeO 2 rhsC) [0, 1] 1 "legendre" none = .ok s' ∧
    Clock (odeD freshI 1 rhsT) (odeD freshI 2 rhsC) (.sym (freshI "xdot") 1) (.sym (freshI "xdot") 2) (odeRes freshI 1 rhsT)
      (odeRes freshI 2 rhsC) ∧ ∀ v ∈ s'.eq.vals envC, v = 0 := by
  obtain ⟨F, pre⟩ := ode_pre freshI hI 1 rhsT rhsT_dep rfl [0, 1] [1 / 2] (by simp) (by simp)
  obtain ⟨F', pre'⟩ := ode_pre freshI hI 2 rhsC (fun e e' h _ i hi => by
    simp only [rhsC, h 1 (by omega)]) rfl [0, 1] [1 / 2] (by simp) (by simp)
  obtain ⟨s, hs⟩ := C26_constructed exFresh freshI _ _ _ _ _ _ _ _ _ _ _ _ false pre
  obtain ⟨s', hs'⟩ := C26_constructed exFresh freshI _ _ _ _ _ _ _ _ _ _ _ _ false pre'
  have hd : ([1 / 2] : List ℚ).Nodup := by simp
  have heq := ode_step freshI 1 rhsT F (by decide +kernel) (by decide +kernel) pre s hs envT (fun e _ h i _ => by simp [rhsT, h, envT]) (fun i _ => by simp [envT])
  have hc : Clock (odeD freshI 1 rhsT) (odeD freshI 2 rhsC) (.sym (freshI "xdot") 1) (.sym (freshI "xdot") 2) (odeRes freshI 1 rhsT)
      (odeRes freshI 2 rhsC) := by
    refine ⟨rfl, rfl, rfl, rfl, rfl, fun e h => ?_, fun e e' hk hx _ _ _ ht => ⟨?_, fun i hi => absurd hi (Nat.not_lt_zero _)⟩⟩
    · exact ((ode_residual freshI 2 rhsC e).mp h) 1 (by omega)
    · rw [ode_residual, ode_residual]
      have k0 := hk 0 (by show 0 < 1; omega)
      change e (freshI "xdot") 0 0 = e' (freshI "xdot") 0 0 at k0
      change e 4 0 0 = e' 0 1 0 at ht
      change _ ↔ _ ∧ e' (freshI "xdot") 1 0 = 1
      constructor
      · intro h
        refine ⟨fun i hi => ?_, h 1 (by omega)⟩
        obtain rfl : i = 0 := by omega
        have := h 0 (by omega)
        simp only [rhsC, if_true] at this
        rw [k0, this, rhsT, ht]
      · rintro ⟨h, h1⟩ i hi
        have h0 := h 0 (by omega)
        rw [k0, rhsT, ht] at h0
        interval_cases i
        · simpa [rhsC] using h0
        · simpa [rhsC] using h1
  have b := pre.built hs
  have b' := pre'.built hs'
  have hN : s.N = 1 := b.N_eq
  have hM : s.M = 1 := b.M_eq
  have hx : ∀ i j, s.x.val envT i j = envT 0 i j := fun i j => by rw [b.x]; rfl
  have hx' : ∀ i j, s'.x.val envC i j = envC 0 i j := fun i j => by rw [b'.x]; rfl
  have hk : ∀ i j, s.Kd.val envT i j = envT 1 i j := fun i j => by rw [b.Kd]; rfl
  have hk' : ∀ i j, s'.Kd.val envC i j = envC 1 i j := fun i j => by rw [b'.Kd]; rfl
  have hf : SameButClock s s' (odeD freshI 1 rhsT) false envT envC := by
    refine ⟨?_, ?_, ?_, ?_, ?_⟩
    · intro n _ i hi
      obtain rfl : i = 0 := by change i < 1 at hi; omega
      rw [hx, hx']; simp [envT, envC]
    · intro n _ i hi
      obtain rfl : i = 0 := by change i < 1 at hi; omega
      rw [hk, hk']; simp [envT, envC]
    · intro c _ i hi; exact absurd hi (Nat.not_lt_zero _)
    · intro c _ i hi; exact absurd hi (Nat.not_lt_zero _)
    · intro c _ i hi; exact absurd hi (Nat.not_lt_zero _)
  refine ⟨s', hs', hc, (C130_clock exFresh exFresh freshI freshI _ _ _ _ _ _ _ _ _ _ _ _ _ _ F F' false s s' idealCsFunction_spec pre
    pre' hs hs' hd hc envT envC hf ?_).mpr ⟨heq, ?_, ?_⟩⟩
  · rw [hx']; simp [envC, odeD, DaeObj.nx, MXExpr.numel, MXExpr.sym]
  · intro n hn
    rw [hN] at hn
    rw [hx']
    interval_cases n <;> simp [envC, odeD, DaeObj.nx, MXExpr.numel, MXExpr.sym]
  · intro c _
    rw [hk']
    simp [envC, odeD, DaeObj.nx, MXExpr.numel, MXExpr.sym]

/-- C130: `x' = t` and `x' = x` side by side. -/
example (freshI : String → ℕ) (hI : 6 ≤ freshI "xdot") : ∃ s,
    Scheme.new exFresh freshI (fun _ _ => .ok [1 / 2]) idealCsFunction (odeO 2 rhsTX) [0, 1] 1 "legendre" none = .ok s ∧
    Parallel (odeD freshI 1 rhsT) (odeD freshI 1 rhsX) (odeD freshI 2 rhsTX) (.sym (freshI "xdot") 1) (.sym (freshI "xdot") 1)
      (.sym (freshI "xdot") 2) (odeRes freshI 1 rhsT) (odeRes freshI 1 rhsX) (odeRes freshI 2 rhsTX) none ∧
    ∀ v ∈ s.eq.vals envTX, v = 0 := by
  obtain ⟨F₁, pre₁⟩ := ode_pre freshI hI 1 rhsT rhsT_dep rfl [0, 1] [1 / 2] (by simp) (by simp)
  obtain ⟨F₂, pre₂⟩ := ode_pre freshI hI 1 rhsX (fun e e' h _ i hi => h i hi) rfl [0, 1] [1 / 2] (by simp) (by simp)
  obtain ⟨F, pre⟩ := ode_pre freshI hI 2 rhsTX (fun e e' h h' i hi => by
    simp only [rhsTX, h', h 1 (by omega)]) rfl [0, 1] [1 / 2] (by simp) (by simp)
  obtain ⟨s, hs⟩ := C26_constructed exFresh freshI _ _ _ _ _ _ _ _ _ _ _ _ false pre
  obtain ⟨s₁, hs₁⟩ := C26_constructed exFresh freshI _ _ _ _ _ _ _ _ _ _ _ _ false pre₁
  obtain ⟨s₂, hs₂⟩ := C26_constructed exFresh freshI _ _ _ _ _ _ _ _ _ _ _ _ false pre₂
  have hd : ([1 / 2] : List ℚ).Nodup := by simp
  have heq₁ := ode_step freshI 1 rhsT F₁ (by decide +kernel) (by decide +kernel) pre₁ s₁ hs₁ envT (fun e _ h i _ => by simp [rhsT, h, envT]) (fun i _ => by simp [envT])
  have heq₂ := ode_step freshI 1 rhsX F₂ (by decide +kernel) (by decide +kernel) pre₂ s₂ hs₂ envX (fun e h _ i hi => by
    simp only [rhsX]; rw [h i hi]; norm_num [envX]) (fun i _ => by norm_num [envX])
  have hp : Parallel (odeD freshI 1 rhsT) (odeD freshI 1 rhsX) (odeD freshI 2 rhsTX) (.sym (freshI "xdot") 1) (.sym (freshI "xdot") 1)
      (.sym (freshI "xdot") 2) (odeRes freshI 1 rhsT) (odeRes freshI 1 rhsX) (odeRes freshI 2 rhsTX) none := by
    have l : ∀ e e' τ, (Change.rows 0 0 0 0).AtTime (odeD freshI 1 rhsT) (odeD freshI 2 rhsTX) (.sym (freshI "xdot") 1)
        (.sym (freshI "xdot") 2) none none e e' τ → e (freshI "xdot") 0 0 = e' (freshI "xdot") 0 0 ∧ e 4 0 0 = e' 4 0 0 := by
      intro e e' τ ha
      have k := ha.xdot 0 (by show 0 < 1; omega)
      have t := ha.t
      have t' := ha.t'
      change _ = _ * ∑ j ∈ Finset.range 2, _ + _ at k
      simp [Finset.sum_range_succ, Change.rows, odeD, MXExpr.sym] at k t t'
      exact ⟨k, by rw [t, t']⟩
    have r : ∀ e e' τ, (Change.rows 1 0 0 0).AtTime (odeD freshI 1 rhsX) (odeD freshI 2 rhsTX) (.sym (freshI "xdot") 1)
        (.sym (freshI "xdot") 2) none none e e' τ → e (freshI "xdot") 0 0 = e' (freshI "xdot") 1 0 ∧ e 0 0 0 = e' 0 1 0 := by
      intro e e' τ ha
      have k := ha.xdot 0 (by show 0 < 1; omega)
      have x := ha.x 0 (by show 0 < 1; omega)
      change _ = _ * ∑ j ∈ Finset.range 2, _ + _ at k
      change _ = ∑ j ∈ Finset.range 2, _ + _ at x
      simp [Finset.sum_range_succ, Change.rows, odeD, MXExpr.sym] at k x
      exact ⟨k, x⟩
    refine ⟨rfl, rfl, ⟨rfl, rfl⟩, ⟨rfl, rfl⟩, ⟨fun i hi => absurd hi (Nat.not_lt_zero _), fun i hi => hi, fun i hi => hi, ?_,
      fun e e' τ ha _ hz i hi => absurd hi (Nat.not_lt_zero _)⟩, ⟨fun i hi => absurd hi (Nat.not_lt_zero _), fun i hi => hi,
      fun i hi => hi, ?_, fun e e' τ ha _ hz i hi => absurd hi (Nat.not_lt_zero _)⟩, ?_⟩
    · intro e e' τ ha _ hz
      rw [ode_residual] at hz ⊢
      intro i hi
      obtain rfl : i = 0 := by omega
      have := hz 0 (by omega)
      rw [(l e e' τ ha).1, this]
      simp [rhsTX, rhsT, (l e e' τ ha).2]
    · intro e e' τ ha _ hz
      rw [ode_residual] at hz ⊢
      intro i hi
      obtain rfl : i = 0 := by omega
      have := hz 1 (by omega)
      rw [(r e e' τ ha).1, this]
      simp [rhsTX, rhsX, (r e e' τ ha).2]
    · intro e₁ e₂ e τ ha₁ ha₂ hz₁ hz₂
      rw [ode_residual] at hz₁ hz₂ ⊢
      intro i hi
      have h₁ := hz₁ 0 (by omega)
      have h₂ := hz₂ 0 (by omega)
      rw [(l e₁ e τ ha₁).1, rhsT, (l e₁ e τ ha₁).2] at h₁
      rw [(r e₂ e τ ha₂).1, rhsX, (r e₂ e τ ha₂).2] at h₂
      interval_cases i
      · simpa [rhsTX] using h₁
      · simpa [rhsTX] using h₂
  have b := pre.built hs
  have b₁ := pre₁.built hs₁
  have b₂ := pre₂.built hs₂
  have hx : ∀ i j, s.x.val envTX i j = envTX 0 i j := fun i j => by rw [b.x]; rfl
  have hk : ∀ i j, s.Kd.val envTX i j = envTX 1 i j := fun i j => by rw [b.Kd]; rfl
  have hx₁ : ∀ i j, s₁.x.val envT i j = envT 0 i j := fun i j => by rw [b₁.x]; rfl
  have hk₁ : ∀ i j, s₁.Kd.val envT i j = envT 1 i j := fun i j => by rw [b₁.Kd]; rfl
  have hx₂ : ∀ i j, s₂.x.val envX i j = envX 0 i j := fun i j => by rw [b₂.x]; rfl
  have hk₂ : ∀ i j, s₂.Kd.val envX i j = envX 1 i j := fun i j => by rw [b₂.Kd]; rfl
  refine ⟨s, hs, hp, (C130_parallel exFresh freshI _ _ _ _ _ _ _ _ _ _ _ F false s exFresh exFresh freshI freshI _ _ _ _ _ _ _ _ F₁ F₂
    s₁ s₂ idealCsFunction_spec pre pre₁ pre₂ hs hs₁ hs₂ hd hp envTX envT envX ?_ ?_).mpr ⟨heq₁, heq₂⟩⟩
  · refine ⟨?_, ?_, ?_, ?_, ?_⟩
    · intro n _ i hi
      obtain rfl : i = 0 := by change i < 1 at hi; omega
      change _ = ∑ j ∈ Finset.range 2, _ + _
      rw [hx₁]
      simp [hx, Finset.sum_range_succ, Change.rows, envT, envTX]
    · intro n _ i hi
      obtain rfl : i = 0 := by change i < 1 at hi; omega
      change _ = _ * ∑ j ∈ Finset.range 2, _ + _
      rw [hk₁]
      simp [hk, Finset.sum_range_succ, Change.rows, envT, envTX]
    · intro c _ i hi; exact absurd hi (Nat.not_lt_zero _)
    · intro c _ i hi; exact absurd hi (Nat.not_lt_zero _)
    · intro c _ i hi; exact absurd hi (Nat.not_lt_zero _)
  · refine ⟨?_, ?_, ?_, ?_, ?_⟩
    · intro n _ i hi
      obtain rfl : i = 0 := by change i < 1 at hi; omega
      change _ = ∑ j ∈ Finset.range 2, _ + _
      rw [hx₂]
      simp [hx, Finset.sum_range_succ, Change.rows, envX, envTX, odeD, DaeObj.nx, MXExpr.numel, MXExpr.sym]
    · intro n _ i hi
      obtain rfl : i = 0 := by change i < 1 at hi; omega
      change _ = _ * ∑ j ∈ Finset.range 2, _ + _
      rw [hk₂]
      simp [hk, Finset.sum_range_succ, Change.rows, envX, envTX, odeD, DaeObj.nx, MXExpr.numel, MXExpr.sym]
    · intro c _ i hi; exact absurd hi (Nat.not_lt_zero _)
    · intro c _ i hi; exact absurd hi (Nat.not_lt_zero _)
    · intro c _ i hi; exact absurd hi (Nat.not_lt_zero _)

end CE
