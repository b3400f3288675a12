import Verif.Num.LemStable
import Verif.Num.PropsExist

/-!
# Property C81: dissipative models stay dissipative with Gauss and Radau nodes, for steps of any length
-/

open Polynomial

namespace CE

/-- Dissipation inequality with storage function `x' S x` and supply rate `sum v[k]*quad[k]`: wherever the residual vanishes, the
time derivative of the storage function is at most the supply rate. -/
def DissipationLaw (d : DaeObj ℝ) (xdot res : MXExpr ℝ) (S : ℕ → ℕ → ℝ) (v : ℕ → ℝ) : Prop :=
  ∀ env', ResidualZero res env' → ∑ i ∈ Finset.range d.nx, ∑ j ∈ Finset.range d.nx,
      S i j * (xdot.val env' i 0 * d.x.val env' j 0 + d.x.val env' i 0 * xdot.val env' j 0) ≤
    ∑ k ∈ Finset.range d.nq, v k * d.quad.val env' k 0

/-- The distance of two solutions of the model with the same inputs and parameters at the same time, measured by the
form `S`, does not increase. -/
def Contractive (d : DaeObj ℝ) (xdot res : MXExpr ℝ) (S : ℕ → ℕ → ℝ) : Prop :=
  ∀ e e' : Env ℝ, ResidualZero res e → ResidualZero res e' → (∀ i < d.nu, d.u.val e i 0 = d.u.val e' i 0) →
    (∀ i < d.np, d.p.val e i 0 = d.p.val e' i 0) → d.t.val e 0 0 = d.t.val e' 0 0 →
    (∀ i < d.tdp.rows, ∀ j < d.tdp.cols, d.tdp.val e i j = d.tdp.val e' i j) →
    ∑ i ∈ Finset.range d.nx, ∑ j ∈ Finset.range d.nx, S i j *
      ((xdot.val e i 0 - xdot.val e' i 0) * (d.x.val e j 0 - d.x.val e' j 0) +
        (d.x.val e i 0 - d.x.val e' i 0) * (xdot.val e j 0 - xdot.val e' j 0)) ≤ 0

/-- One interval: from bounds for the derivative of the form at the nodes to a bound of its increase. -/
theorem form_step {tau : List ℝ} (hd : tau.Nodup) (hpos : 0 < tau.length) (S : ℕ → ℕ → ℝ) (m : ℕ)
    (hst : StableNodes tau S m) (P : ℕ → ℝ[X]) (hP : ∀ i, (P i).degree ≤ tau.length) (a h : ℝ) (hh : 0 ≤ h) (ρ : ℕ → ℝ)
    (hρ : ∀ k < tau.length, ∑ i ∈ Finset.range m, ∑ j ∈ Finset.range m, S i j *
      ((derivative (P i)).eval (a + h * nd tau k) * (P j).eval (a + h * nd tau k) +
        (P i).eval (a + h * nd tau k) * (derivative (P j)).eval (a + h * nd tau k)) ≤ ρ k) :
    qform S m (fun i => (P i).eval (a + h)) ≤ qform S m (fun i => (P i).eval a) +
      h * ∑ k ∈ Finset.range tau.length, ρ k * wb tau k := by
  have h1 := form_increase hd hpos S m hst P hP _ rfl a h
  have hw : ∀ k < tau.length, 0 ≤ wb tau k := fun k hk => weights_nonneg hd (hst.imp id And.left) hk
  have hev : ∀ x, (∑ i ∈ Finset.range m, ∑ j ∈ Finset.range m, C (S i j) * (P i * P j)).eval x = qform S m fun i => (P i).eval x := by
    intro x
    simp only [eval_finset_sum, eval_mul, eval_C, qform]
  rw [hev, hev] at h1
  have h2 : ∑ k ∈ Finset.range tau.length, wb tau k * (derivative (∑ i ∈ Finset.range m, ∑ j ∈ Finset.range m,
      C (S i j) * (P i * P j))).eval (a + h * nd tau k) ≤ ∑ k ∈ Finset.range tau.length, ρ k * wb tau k := by
    refine Finset.sum_le_sum fun k hk => ?_
    have hk := Finset.mem_range.mp hk
    rw [mul_comm (ρ k)]
    refine mul_le_mul_of_nonneg_left ?_ (hw k hk)
    refine le_trans (le_of_eq ?_) (hρ k hk)
    simp only [derivative_sum, derivative_mul, derivative_C, zero_mul, zero_add, eval_finset_sum, eval_mul, eval_C, eval_add]
  have := mul_le_mul_of_nonneg_left h2 hh
  linarith

section
variable (fresh freshI : String → ℕ) (casadiPoints : ℕ → String → Except PyErr (List ℝ))
    (csFunction : List (MXExpr ℝ) → List (MXExpr ℝ) → Except PyErr (CsFn ℝ))
    (dae : DaeObj ℝ) (t : List ℝ) (order : ℕ) (method : String) (tdp_fun : Option (ℝ → Mat ℝ))
    (d : DaeObj ℝ) (xdot res : MXExpr ℝ) (tau : List ℝ) (F : CsFn ℝ) (rep : Bool) (s : Scheme ℝ)

/-- **C81** (dissipation) With Gauss nodes, or with Radau nodes and a form that is not negative, every solution of the
collocation equations on an increasing grid satisfies the dissipation inequality of the model on every interval. -/
theorem C81_dissipation (hcs : IsCsFunction csFunction)
    (pre : SchemePre freshI casadiPoints csFunction dae t order method tdp_fun d xdot res tau F)
    (hs : Scheme.new fresh freshI casadiPoints csFunction dae t order method tdp_fun rep = .ok s)
    (hd : tau.Nodup) (S : ℕ → ℕ → ℝ) (hst : StableNodes tau S d.nx) (ht : ∀ n < s.N, nd t n < nd t (n + 1)) (env : Env ℝ)
    (heq : ∀ v ∈ s.eq.vals env, v = 0) (v : ℕ → ℝ) (law : DissipationLaw d xdot res S v) :
    ∀ n < s.N, qform S d.nx (fun i => s.x.val env i (n + 1)) ≤ qform S d.nx (fun i => s.x.val env i n) +
      ∑ k ∈ Finset.range d.nq, v k * (s.q.val env k (n + 1) - s.q.val env k n) := by
  have b := pre.built hs
  have h25 := C25_equations fresh freshI casadiPoints csFunction dae t order method tdp_fun d xdot res tau F rep s hcs pre hs
    hd (fun n hn => (ht n hn).ne) env
  obtain ⟨hres, hend, -⟩ := h25.1.mp heq
  have hnq : d.nq = d.quad.rows := by simp [DaeObj.nq, MXExpr.numel, pre.quad]
  have h24 := fun i n hn => C24_state_integration fresh freshI casadiPoints csFunction dae t order method tdp_fun d xdot
    res tau F rep s pre hs hd env i n hn
  intro n hn
  choose P hP _ using fun i => (h24 i n hn).1 (ht n hn).ne
  have hM := b.M_eq
  have hn' : n < t.length - 1 := by rw [← b.N_eq]; exact hn
  have htc : ∀ k < order, nd s.tc (n * order + k) = nd t n + (nd t (n + 1) - nd t n) * nd tau k := fun k hk => b.tc n k hn' hk
  have step := form_step hd (by rw [pre.len]; exact pre.pos) S d.nx hst P
    (fun i => by have := (hP i).degree; rwa [hM, ← pre.len] at this) (nd t n) (nd t (n + 1) - nd t n)
    (sub_nonneg.mpr (ht n hn).le) (fun k => ∑ j ∈ Finset.range d.nq, v j * s.quad.val env j (n * order + k)) (by
      intro k hk
      rw [pre.len] at hk
      have hc : n * order + k < s.N * s.M := by rw [hM]; exact block_lt hn hk
      obtain ⟨env', hat⟩ := h25.2.1 _ hc
      have h0 := law env' (hres _ hc env' hat)
      have hc' := hc
      rw [b.N_eq, hM] at hc'
      have hout := (hat.out hcs pre b.toCore hc').2
      have hX : ∀ i < d.nx, (P i).eval (nd t n + (nd t (n + 1) - nd t n) * nd tau k) = d.x.val env' i 0 := by
        intro i hi
        rw [hat.x i (by rw [← pre.wf.nx]; exact hi)]
        have := ((h24 i n hn).2 (P i) (hP i)).1 k (by rw [hM]; exact hk)
        rw [hM] at this
        rw [this, htc k hk]
      have hK : ∀ i < d.nx, (derivative (P i)).eval (nd t n + (nd t (n + 1) - nd t n) * nd tau k) = xdot.val env' i 0 := by
        intro i hi
        rw [hat.xdot i (by rw [← pre.wf.nx]; exact hi)]
        have := (hP i).deriv k (by rw [hM]; exact hk)
        rw [hM] at this
        rw [← this, htc k hk]
      rw [show ∑ j ∈ Finset.range d.nq, v j * s.quad.val env j (n * order + k) =
          ∑ j ∈ Finset.range d.nq, v j * d.quad.val env' j 0 from
        Finset.sum_congr rfl fun j hj => by rw [hout j (by rw [← hnq]; exact Finset.mem_range.mp hj)]]
      refine le_trans (le_of_eq ?_) h0
      refine Finset.sum_congr rfl fun i hi => Finset.sum_congr rfl fun j hj => ?_
      rw [hX i (Finset.mem_range.mp hi), hX j (Finset.mem_range.mp hj), hK i (Finset.mem_range.mp hi),
        hK j (Finset.mem_range.mp hj)])
  rw [add_sub_cancel] at step
  have e1 : qform S d.nx (fun i => (P i).eval (nd t (n + 1))) = qform S d.nx fun i => s.x.val env i (n + 1) :=
    qform_congr fun i hi => hend n hn i hi _ (hP i)
  have e2 : qform S d.nx (fun i => (P i).eval (nd t n)) = qform S d.nx fun i => s.x.val env i n :=
    qform_congr fun i _ => by rw [← b.t_eq]; exact (hP i).start
  rw [e1, e2, pre.len] at step
  refine step.trans (le_of_eq ?_)
  congr 1
  have : ∑ k ∈ Finset.range order, (∑ j ∈ Finset.range d.nq, v j * s.quad.val env j (n * order + k)) * wb tau k =
      ∑ j ∈ Finset.range d.nq, v j * ∑ k ∈ Finset.range order, s.quad.val env j (n * order + k) * wb tau k := by
    simp only [Finset.mul_sum, Finset.sum_mul]
    rw [Finset.sum_comm]
    exact Finset.sum_congr rfl fun j _ => Finset.sum_congr rfl fun k _ => by ring
  rw [this, Finset.mul_sum]
  refine Finset.sum_congr rfl fun k _ => ?_
  rw [b.q env k n hn']
  ring

/-- **C81** (contractivity) With Gauss nodes, or with Radau nodes and a form that is not negative, the distance of two solutions of
the collocation equations of a contractive model with the same inputs and parameters does not increase from one interval bound
to the next, whatever the lengths of the intervals. -/
theorem C81_contractive (hcs : IsCsFunction csFunction)
    (pre : SchemePre freshI casadiPoints csFunction dae t order method tdp_fun d xdot res tau F)
    (hs : Scheme.new fresh freshI casadiPoints csFunction dae t order method tdp_fun rep = .ok s)
    (hd : tau.Nodup) (S : ℕ → ℕ → ℝ) (hst : StableNodes tau S d.nx) (ht : ∀ n < s.N, nd t n < nd t (n + 1))
    (law : Contractive d xdot res S) (env₁ env₂ : Env ℝ) (h₁ : ∀ v ∈ s.eq.vals env₁, v = 0) (h₂ : ∀ v ∈ s.eq.vals env₂, v = 0)
    (hu : ∀ n < s.N, ∀ i < d.nu, s.u.val env₁ i n = s.u.val env₂ i n)
    (hp : ∀ i < d.np, s.p.val env₁ i 0 = s.p.val env₂ i 0) :
    ∀ n < s.N, qform S d.nx (fun i => s.x.val env₁ i (n + 1) - s.x.val env₂ i (n + 1)) ≤
      qform S d.nx (fun i => s.x.val env₁ i n - s.x.val env₂ i n) := by
  have b := pre.built hs
  have hne : ∀ n < s.N, nd t n ≠ nd t (n + 1) := fun n hn => (ht n hn).ne
  have h25 := fun env => C25_equations fresh freshI casadiPoints csFunction dae t order method tdp_fun d xdot res tau F rep s hcs pre hs
    hd hne env
  obtain ⟨hres₁, hend₁, hpar₁⟩ := (h25 env₁).1.mp h₁
  obtain ⟨hres₂, hend₂, hpar₂⟩ := (h25 env₂).1.mp h₂
  have hnp : d.np = d.p.rows := by simp [DaeObj.np, MXExpr.numel, pre.p]
  have h24 := fun env i n hn => C24_state_integration fresh freshI casadiPoints csFunction dae t order method tdp_fun d xdot
    res tau F rep s pre hs hd env i n hn
  intro n hn
  choose P hP _ using fun i => (h24 env₁ i n hn).1 (hne n hn)
  choose Q hQ _ using fun i => (h24 env₂ i n hn).1 (hne n hn)
  have hM := b.M_eq
  have hn' : n < t.length - 1 := by rw [← b.N_eq]; exact hn
  have htc : ∀ k < order, nd s.tc (n * order + k) = nd t n + (nd t (n + 1) - nd t n) * nd tau k := fun k hk => b.tc n k hn' hk
  have step := form_step hd (by rw [pre.len]; exact pre.pos) S d.nx hst (fun i => P i - Q i)
    (fun i => by
      have h1 := (hP i).degree
      have h2 := (hQ i).degree
      rw [hM, ← pre.len] at h1 h2
      exact (degree_sub_le _ _).trans (max_le h1 h2)) (nd t n) (nd t (n + 1) - nd t n)
    (sub_nonneg.mpr (ht n hn).le) (fun _ => 0) (by
      intro k hk
      rw [pre.len] at hk
      have hc : n * order + k < s.N * s.M := by rw [hM]; exact block_lt hn hk
      obtain ⟨e₁, hat₁⟩ := (h25 env₁).2.1 _ hc
      obtain ⟨e₂, hat₂⟩ := (h25 env₂).2.1 _ hc
      have h0 := law e₁ e₂ (hres₁ _ hc e₁ hat₁) (hres₂ _ hc e₂ hat₂)
        (fun i hi => by
          have hi' : i < d.u.rows := by rw [← pre.wf.nu]; exact hi
          rw [hat₁.u i hi', hat₂.u i hi', hM, div_block hk]
          exact hu n hn i hi)
        (fun i hi => by
          rw [hat₁.p i (hnp ▸ hi), hat₂.p i (hnp ▸ hi)]
          cases rep with
          | false => exact hp i hi
          | true => rw [if_pos rfl, hpar₁ rfl _ hc i hi, hpar₂ rfl _ hc i hi]; exact hp i hi)
        (by rw [hat₁.t, hat₂.t])
        (fun i hi j hj => by
          have := pre.tdpFun
          cases htf : tdp_fun with
          | none =>
            rw [htf] at this
            simp only at this
            rw [this.1] at hi
            exact absurd hi (Nat.not_lt_zero _)
          | some f => rw [hat₁.tdp f htf i hi j hj, hat₂.tdp f htf i hi j hj])
      have hX : ∀ (env e : Env ℝ) (R : ℕ → ℝ[X]), (∀ i, IsCollocationPoly s env i n (R i)) →
          AtPoint s d xdot tdp_fun rep env e (n * order + k) → ∀ i < d.nx,
          (R i).eval (nd t n + (nd t (n + 1) - nd t n) * nd tau k) = d.x.val e i 0 ∧
          (derivative (R i)).eval (nd t n + (nd t (n + 1) - nd t n) * nd tau k) = xdot.val e i 0 := by
        intro env e R hR hat i hi
        constructor
        · rw [hat.x i (by rw [← pre.wf.nx]; exact hi)]
          have := ((h24 env i n hn).2 (R i) (hR i)).1 k (by rw [hM]; exact hk)
          rw [hM] at this
          rw [this, htc k hk]
        · rw [hat.xdot i (by rw [← pre.wf.nx]; exact hi)]
          have := (hR i).deriv k (by rw [hM]; exact hk)
          rw [hM] at this
          rw [← this, htc k hk]
      refine le_trans (le_of_eq ?_) h0
      refine Finset.sum_congr rfl fun i hi => Finset.sum_congr rfl fun j hj => ?_
      have hi := Finset.mem_range.mp hi
      have hj := Finset.mem_range.mp hj
      simp only [derivative_sub, eval_sub]
      rw [(hX env₁ e₁ P hP hat₁ i hi).1, (hX env₁ e₁ P hP hat₁ i hi).2, (hX env₁ e₁ P hP hat₁ j hj).1,
        (hX env₁ e₁ P hP hat₁ j hj).2, (hX env₂ e₂ Q hQ hat₂ i hi).1, (hX env₂ e₂ Q hQ hat₂ i hi).2,
        (hX env₂ e₂ Q hQ hat₂ j hj).1, (hX env₂ e₂ Q hQ hat₂ j hj).2])
  rw [add_sub_cancel] at step
  simp only [zero_mul, Finset.sum_const_zero, mul_zero, add_zero, eval_sub] at step
  have e1 : qform S d.nx (fun i => (P i).eval (nd t (n + 1)) - (Q i).eval (nd t (n + 1))) =
      qform S d.nx fun i => s.x.val env₁ i (n + 1) - s.x.val env₂ i (n + 1) :=
    qform_congr fun i hi => by simp only [hend₁ n hn i hi _ (hP i), hend₂ n hn i hi _ (hQ i)]
  have e2 : qform S d.nx (fun i => (P i).eval (nd t n) - (Q i).eval (nd t n)) =
      qform S d.nx fun i => s.x.val env₁ i n - s.x.val env₂ i n := by
    refine qform_congr fun i _ => ?_
    have p1 := (hP i).start
    have q1 := (hQ i).start
    rw [b.t_eq] at p1 q1
    simp only [p1, q1]
  rwa [e1, e2] at step

/-- **C81** (uniqueness) If moreover the form is positive definite, two solutions of the collocation equations with the same
initial state, inputs and parameters have the same states at all interval bounds, without a bound on the lengths of the
intervals. -/
theorem C81_unique (hcs : IsCsFunction csFunction)
    (pre : SchemePre freshI casadiPoints csFunction dae t order method tdp_fun d xdot res tau F)
    (hs : Scheme.new fresh freshI casadiPoints csFunction dae t order method tdp_fun rep = .ok s)
    (hd : tau.Nodup) (S : ℕ → ℕ → ℝ) (hnode : IsGauss tau ∨ IsRadau tau)
    (hpd : ∀ v : ℕ → ℝ, (∃ i < d.nx, v i ≠ 0) → 0 < qform S d.nx v) (ht : ∀ n < s.N, nd t n < nd t (n + 1))
    (law : Contractive d xdot res S) (env₁ env₂ : Env ℝ) (h₁ : ∀ v ∈ s.eq.vals env₁, v = 0) (h₂ : ∀ v ∈ s.eq.vals env₂, v = 0)
    (hu : ∀ n < s.N, ∀ i < d.nu, s.u.val env₁ i n = s.u.val env₂ i n)
    (hp : ∀ i < d.np, s.p.val env₁ i 0 = s.p.val env₂ i 0) (hx : ∀ i < d.nx, s.x.val env₁ i 0 = s.x.val env₂ i 0) :
    ∀ n ≤ s.N, ∀ i < d.nx, s.x.val env₁ i n = s.x.val env₂ i n := by
  have hz : ∀ v : ℕ → ℝ, (∀ i < d.nx, v i = 0) → qform S d.nx v = 0 := fun v hv => by
    rw [qform_congr (w := fun _ => 0) hv]
    simp [qform]
  have hnn : ∀ v, 0 ≤ qform S d.nx v := by
    intro v
    by_cases h : ∃ i < d.nx, v i ≠ 0
    · exact (hpd v h).le
    · push Not at h
      exact (hz v h).ge
  have hc := C81_contractive fresh freshI casadiPoints csFunction dae t order method tdp_fun d xdot res tau F rep s hcs pre hs hd S
    (hnode.imp id fun h => ⟨h, hnn⟩) ht law env₁ env₂ h₁ h₂ hu hp
  intro n
  induction n with
  | zero => intro _; exact hx
  | succ n ih =>
    intro hn i hi
    by_contra hcon
    have h1 := hc n hn
    rw [hz (fun i => s.x.val env₁ i n - s.x.val env₂ i n) (fun i hi => sub_eq_zero.mpr (ih (by omega) i hi))] at h1
    exact absurd (hpd _ ⟨i, hi, sub_ne_zero.mpr hcon⟩) (not_lt.mpr h1)

end

/-! ## Non-vacuity: `x' = -x` -/

theorem decay_eq (freshI : String → ℕ) (t tau : List ℝ) (F : CsFn ℝ) (s : Scheme ℝ)
    (pre : SchemePre freshI (fun _ _ => .ok tau) idealCsFunction decayO t tau.length "legendre" none (decayD freshI)
        (.sym (freshI "xdot") 1) (decayRes freshI) tau F)
    (b : s.Built exFresh t tau.length none false (decayD freshI) (.sym (freshI "xdot") 1) (decayRes freshI) tau F) (env : Env ℝ) :
    (∀ v ∈ s.eq.vals env, v = 0) ↔ (∀ c < (t.length - 1) * tau.length, env 1 0 c = -s.X.val env 0 c) ∧
      ∀ n < t.length - 1, s.eqContinuity.val env 0 n = 0 := by
  rw [Scheme.eq_zero_iff pre b]
  have h1 : ∀ c < (t.length - 1) * tau.length, s.eqCollocation.val env 0 c = env 1 0 c + s.X.val env 0 c := by
    intro c hc
    obtain ⟨e, he⟩ := exists_atPoint idealCsFunction_spec pre b.toCore env hc
    rw [(he.out idealCsFunction_spec pre b.toCore hc).1 0 Nat.one_pos]
    have e1 := he.xdot 0 Nat.one_pos
    have e2 := he.x 0 Nat.one_pos
    rw [b.Kd] at e1
    change e (freshI "xdot") 0 0 = env 1 0 c at e1
    change e 0 0 0 = _ at e2
    simp only [decayRes, Nat.zero_lt_one, if_true]
    rw [e1, e2, sub_neg_eq_add]
  constructor
  · rintro ⟨ha, hb, -⟩
    exact ⟨fun c hc => eq_neg_of_add_eq_zero_left ((h1 c hc).symm.trans (ha c hc 0 Nat.one_pos)), fun n hn => hb n hn 0 Nat.one_pos⟩
  · rintro ⟨ha, hb⟩
    refine ⟨fun c hc i hi => ?_, fun n hn i hi => ?_, fun h => by cases h⟩
    · obtain rfl : i = 0 := by change i < 1 at hi; omega
      rw [h1 c hc, ha c hc, neg_add_cancel]
    · obtain rfl : i = 0 := by change i < 1 at hi; omega
      exact hb n hn

theorem decay_dissipative (freshI : String → ℕ) : DissipationLaw (decayD freshI) (.sym (freshI "xdot") 1) (decayRes freshI)
    (fun _ _ => 1) (fun _ => 0) := by
  intro env' h
  have h0 := h 0 Nat.one_pos 0 Nat.one_pos
  simp only [decayRes, Nat.zero_lt_one, if_true] at h0
  show ∑ i ∈ Finset.range 1, ∑ j ∈ Finset.range 1, _ ≤ _
  simp only [Finset.sum_range_one, one_mul, zero_mul, Finset.sum_const_zero, decayD, MXExpr.sym]
  rw [show env' (freshI "xdot") 0 0 = -env' 0 0 0 by linarith]
  nlinarith [sq_nonneg (env' 0 0 0)]

theorem decay_contractive (freshI : String → ℕ) : Contractive (decayD freshI) (.sym (freshI "xdot") 1) (decayRes freshI)
    (fun _ _ => 1) := by
  intro e e' h h' _ _ _ _
  have h0 := h 0 Nat.one_pos 0 Nat.one_pos
  have h1 := h' 0 Nat.one_pos 0 Nat.one_pos
  simp only [decayRes, Nat.zero_lt_one, if_true] at h0 h1
  show ∑ i ∈ Finset.range 1, ∑ j ∈ Finset.range 1, _ ≤ _
  simp only [Finset.sum_range_one, one_mul, decayD, MXExpr.sym]
  rw [show e (freshI "xdot") 0 0 = -e 0 0 0 by linarith, show e' (freshI "xdot") 0 0 = -e' 0 0 0 by linarith]
  nlinarith [sq_nonneg (e 0 0 0 - e' 0 0 0)]

/-- The Radau nodes of order 2. -/
theorem isRadau_two : IsRadau ([1 / 3, 1] : List ℝ) := by
  refine ⟨by simp, fun q P hq hP => ?_⟩
  have hq0 : q = C (q.coeff 0) := eq_C_of_degree_le_zero (by
    have : q.degree < (1 : ℕ) := hq
    exact Nat.WithBot.lt_one_iff_le_zero.mp (by simpa using this))
  have h1 : derivative P = derivative (C (q.coeff 0) * (C (1 / 3) * X ^ 3 - C (2 / 3) * X ^ 2 + C (1 / 3) * X)) := by
    rw [hP]
    conv_lhs => rw [hq0]
    simp only [List.map_cons, List.map_nil, List.prod_cons, List.prod_nil, mul_one, derivative_C_mul, derivative_sub, derivative_add,
      derivative_X_pow, derivative_X]
    have e1 : (C (1 / 3) : ℝ[X]) * (C ((3 : ℕ) : ℝ) * X ^ (3 - 1)) = X ^ 2 := by
      rw [← mul_assoc, ← C_mul]; norm_num
    have e2 : (C (2 / 3) : ℝ[X]) * (C ((2 : ℕ) : ℝ) * X ^ (2 - 1)) = C (4 / 3) * X := by
      rw [← mul_assoc, ← C_mul]; norm_num
    rw [e1, e2, show (C (4 / 3) : ℝ[X]) = C (1 / 3) + C 1 by rw [← C_add]; norm_num, C_1]
    ring
  rw [antiderivative_diff h1]
  simp
  norm_num

/-- Radau nodes of order 2 on any increasing grid: no solution grows, and the solution is determined by its initial value. -/
example (freshI : String → ℕ) (hI : 7 ≤ freshI "xdot") (t : List ℝ) (two : 2 ≤ t.length)
    (ht : ∀ n < t.length - 1, nd t n < nd t (n + 1)) : ∃ s,
    Scheme.new exFresh freshI (fun _ _ => .ok [1 / 3, 1]) idealCsFunction decayO t 2 "legendre" none = .ok s ∧ s.N = t.length - 1 ∧
    (∀ env, (∀ v ∈ s.eq.vals env, v = 0) → ∀ n < s.N, s.x.val env 0 (n + 1) ^ 2 ≤ s.x.val env 0 n ^ 2) ∧
    ∀ env env', (∀ v ∈ s.eq.vals env, v = 0) → (∀ v ∈ s.eq.vals env', v = 0) → s.x.val env 0 0 = s.x.val env' 0 0 →
      ∀ n ≤ s.N, s.x.val env 0 n = s.x.val env' 0 n := by
  obtain ⟨F, pre⟩ := decay_pre freshI hI t [1 / 3, 1] two (by simp)
  obtain ⟨s, hs⟩ := C26_constructed exFresh freshI _ _ _ _ _ _ _ _ _ _ _ _ false pre
  have b := pre.built hs
  have hN : s.N = t.length - 1 := b.N_eq
  have hd : ([1 / 3, 1] : List ℝ).Nodup := by norm_num
  have hq : ∀ v : ℕ → ℝ, qform (fun _ _ => 1) (decayD freshI).nx v = v 0 ^ 2 := by
    intro v
    show ∑ i ∈ Finset.range 1, ∑ j ∈ Finset.range 1, _ = _
    simp [pow_two]
  refine ⟨s, hs, hN, fun env heq n hn => ?_, fun env env' heq heq' h0 n hn => ?_⟩
  · have := C81_dissipation exFresh freshI _ _ _ _ _ _ _ _ _ _ _ _ false s idealCsFunction_spec pre hs hd (fun _ _ => 1)
      (.inr ⟨isRadau_two, fun v => by rw [hq]; exact sq_nonneg _⟩) (by rw [hN]; exact ht) env heq _ (decay_dissipative freshI) n hn
    simpa [hq] using this
  · refine C81_unique exFresh freshI _ _ _ _ _ _ _ _ _ _ _ _ false s idealCsFunction_spec pre hs hd (fun _ _ => 1) (.inr isRadau_two)
      ?_ (by rw [hN]; exact ht) (decay_contractive freshI) env env' heq heq' ?_ ?_ ?_ n hn 0 Nat.one_pos
    · rintro v ⟨i, hi, hv⟩
      obtain rfl : i = 0 := by change i < 1 at hi; omega
      rw [hq]; positivity
    · intro n _ i hi; exact absurd hi (Nat.not_lt_zero _)
    · intro i hi; exact absurd hi (Nat.not_lt_zero _)
    · intro i hi
      obtain rfl : i = 0 := by change i < 1 at hi; omega
      exact h0

/-- The collocation equations of the example have solutions for a step that is far too long for C78: one step of length 10 with
node 1 (implicit Euler) from 11 to 1. -/
example (freshI : String → ℕ) (hI : 7 ≤ freshI "xdot") : ∃ s env,
    Scheme.new exFresh freshI (fun _ _ => .ok [1]) idealCsFunction decayO [0, 10] 1 "legendre" none = .ok s ∧
    (∀ v ∈ s.eq.vals env, v = 0) ∧ s.x.val env 0 0 = 11 ∧ s.x.val env 0 1 = 1 ∧ IsRadau [1] := by
  obtain ⟨F, pre⟩ := decay_pre freshI hI [0, 10] [1] (by simp) (by simp)
  obtain ⟨s, hs⟩ := C26_constructed exFresh freshI _ _ _ _ _ _ _ _ _ _ _ _ false pre
  have b := pre.built hs
  obtain ⟨T, hT, hA, hB, -⟩ := C09_butcher_consistent ([1] : List ℝ) (by simp) (by simp)
  obtain ⟨T', hT', -, -, -, hc, -⟩ := C08_butcher_exact ([1] : List ℝ) (by simp)
  rw [hT] at hT'
  cases hT'
  rw [butcher_ok] at hT
  cases hT
  have hA0 : wA ([1] : List ℝ) 0 0 = 1 := by
    have := hA 0 (by simp)
    rw [hc 0 (by simp)] at this
    simpa [wA, NdArray.mat2, nd] using this
  have hB0 : wb ([1] : List ℝ) 0 = 1 := by
    have : ((butcherPoly ([1] : List ℝ) 0).polyint).eval 1 = 1 := by simpa [NdArray.vec] using hB
    exact this
  refine ⟨s, fun id _ j => if id = 0 then nd [11, 1] j else if id = 1 then -1 else 0, hs, ?_, ?_, ?_, by simp, ?_⟩
  · rw [decay_eq freshI _ _ F s pre b]
    constructor
    · intro c hc
      obtain rfl : c = 0 := by simp at hc; omega
      have := b.X (fun id _ j => if id = 0 then nd [11, 1] j else if id = 1 then -1 else 0) 0 0 0 (by simp) (by simp)
      simp only [Nat.zero_mul, Nat.zero_add] at this
      rw [this]
      simp only [List.length_singleton, Finset.sum_range_one, hA0, show exFresh "x" = 0 from rfl, show exFresh "K" = 1 from rfl]
      norm_num [nd]
    · intro n hn
      obtain rfl : n = 0 := by simp at hn; omega
      rw [b.cont _ 0 0 (by simp)]
      simp only [List.length_singleton, Finset.sum_range_one, Nat.zero_mul, Nat.zero_add, hB0, show exFresh "x" = 0 from rfl, show exFresh "K" = 1 from rfl]
      norm_num [nd]
  · rw [b.x]; rfl
  · rw [b.x]; rfl
  · intro q P hq hP
    have : q = 0 := by
      rw [← degree_eq_bot]
      simpa using hq
    have h1 : derivative P = derivative (0 : ℝ[X]) := by rw [hP, this, mul_zero, derivative_zero]
    rw [antiderivative_diff h1]
    simp

end CE
