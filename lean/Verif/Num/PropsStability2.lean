import Verif.Num.PropsStability
import Verif.Num.PropsContract2

/-! # Property C141: dependence of the solutions of contractive models on the inputs and parameters, for steps of any length -/

open Set

namespace CE

/-- **C141** (contractive models) Gauss or Radau nodes and a positive definite form determine a constant such that for every ordinary
differential equation that is contractive with respect to the form and Lipschitz continuous in the inputs and parameters, and every increasing
grid: the states of two solutions (up to tolerances) differ in the norm of the form at most by the initial difference plus the constant times
the integral of the changes of the inputs and parameters, plus tolerances; the states at the collocation points of an interval at most by the
constant times such a sum that includes the interval.  Nothing grows exponentially and the Lipschitz constant in the states does not matter. -/
theorem C141_contractive (tau : List ℝ) (hnode : IsGauss tau ∨ IsRadau tau) (S : ℕ → ℕ → ℝ) (m : ℕ) (hpd : PosDefForm S m) :
    ∃ C ≥ 0, ∀ (fresh freshI : String → ℕ) (casadiPoints : ℕ → String → Except PyErr (List ℝ))
      (csFunction : List (MXExpr ℝ) → List (MXExpr ℝ) → Except PyErr (CsFn ℝ))
      (dae : DaeObj ℝ) (t : List ℝ) (order : ℕ) (method : String) (tdp_fun : Option (ℝ → Mat ℝ))
      (d : DaeObj ℝ) (xdot res ode : MXExpr ℝ) (F : CsFn ℝ) (rep : Bool) (s : Scheme ℝ), IsCsFunction csFunction →
      SchemePre freshI casadiPoints csFunction dae t order method tdp_fun d xdot res tau F →
      Scheme.new fresh freshI casadiPoints csFunction dae t order method tdp_fun rep = .ok s →
      [fresh "x", fresh "K", fresh "Z", fresh "u", fresh "P"].Nodup →
      d.nx = m → ContractiveOde d xdot res ode S → ∀ Lu, LipschitzInData d xdot res Lu → (∀ n < s.N, nd t n < nd t (n + 1)) →
      ∀ (env₁ env₂ : Env ℝ) (tol₁ tol₂ : ℝ), 0 ≤ tol₁ → 0 ≤ tol₂ →
      (∀ v ∈ s.eq.vals env₁, |v| ≤ tol₁) → (∀ v ∈ s.eq.vals env₂, |v| ≤ tol₂) →
      ∀ δ : ℕ → ℝ, (∀ n < s.N, 0 ≤ δ n) →
      (∀ n < s.N, ∀ i < d.nu, |s.u.val env₁ i n - s.u.val env₂ i n| ≤ δ n) →
      (∀ c < s.N * s.M, ∀ i < d.np, |s.p.val env₁ i (if rep then c else 0) - s.p.val env₂ i (if rep then c else 0)| ≤ δ (c / s.M)) →
      (∀ n ≤ s.N, qnorm S m (fun i => s.x.val env₁ i n - s.x.val env₂ i n) ≤
        qnorm S m (fun i => s.x.val env₁ i 0 - s.x.val env₂ i 0) +
        C * (∑ l ∈ Finset.range n, (nd t (l + 1) - nd t l) * (Lu * δ l) + (nd t n - nd t 0 + n) * (tol₁ + tol₂))) ∧
      ∀ n < s.N, ∀ j < s.M, qnorm S m (fun i => s.X.val env₁ i (n * s.M + j) - s.X.val env₂ i (n * s.M + j)) ≤
        C * (qnorm S m (fun i => s.x.val env₁ i 0 - s.x.val env₂ i 0) +
          ∑ l ∈ Finset.range (n + 1), (nd t (l + 1) - nd t l) * (Lu * δ l) + (nd t (n + 1) - nd t 0 + n) * (tol₁ + tol₂)) := by
  rcases Nat.eq_zero_or_pos tau.length with h0 | hpos
  · refine ⟨0, le_rfl, fun fresh freshI casadiPoints csFunction dae t order method tdp_fun d xdot res ode F rep s _ pre => ?_⟩
    have h1 := pre.pos
    rw [← pre.len, h0] at h1
    exact absurd h1 (lt_irrefl _)
  obtain ⟨C, hC, hst⟩ := stage_stable tau hnode hpos S m hpd
  obtain ⟨c, hc, hmax⟩ := qnorm_le_max S m
  refine ⟨(C + 1) * (C * c + c) + C, by positivity, fun fresh freshI casadiPoints csFunction dae t order method tdp_fun d xdot res ode F rep s hcs pre hs hf hm
    con Lu lu ht env₁ env₂ tol₁ tol₂ htol₁ htol₂ h₁ h₂ δ hδ0 hu hp => ?_⟩
  have b := pre.built hs
  have hlen := pre.len
  subst hlen
  have hN := b.N_eq
  have hM := b.M_eq
  have hLu := lu.nonneg
  have hnp : d.np = d.p.rows := by simp [DaeObj.np, MXExpr.numel, pre.p]
  rw [hN] at ht hu hδ0 ⊢
  rw [hM]
  rw [hN, hM] at hp
  rw [pre.wf.nu] at hu
  rw [hnp] at hp
  obtain ⟨r₁, c₁⟩ := Scheme.eq_tol pre b.toCore h₁
  obtain ⟨r₂, c₂⟩ := Scheme.eq_tol pre b.toCore h₂
  have hrow : ∀ i < m, i < d.x.rows := fun i hi => by rw [← pre.wf.nx, hm]; exact hi
  have htol : 0 ≤ tol₁ + tol₂ := add_nonneg htol₁ htol₂
  have hx : ∀ env i n, s.x.val env i n = env (fresh "x") i n := fun env i n => by rw [b.x]; rfl
  simp only [hx]
  simp only [b.u, b.p, MXExpr.sym] at hu hp
  obtain ⟨xu, xP, Ku, KP, Zu, ZP⟩ : fresh "x" ≠ fresh "u" ∧ fresh "x" ≠ fresh "P" ∧ fresh "K" ≠ fresh "u" ∧ fresh "K" ≠ fresh "P" ∧
      fresh "Z" ≠ fresh "u" ∧ fresh "Z" ≠ fresh "P" := by
    simp only [List.nodup_cons, List.mem_cons, List.not_mem_nil, or_false, not_or] at hf
    tauto
  -- the states of the second assignment with the inputs and parameters of the first
  let e0 : Env ℝ := fun id i c => if id = fresh "u" ∨ id = fresh "P" then env₁ id i c else env₂ id i c
  have ex : ∀ i c, e0 (fresh "x") i c = env₂ (fresh "x") i c := fun i c => by simp [e0, xu, xP]
  have eK : ∀ i c, e0 (fresh "K") i c = env₂ (fresh "K") i c := fun i c => by simp [e0, Ku, KP]
  have eZ : ∀ i c, e0 (fresh "Z") i c = env₂ (fresh "Z") i c := fun i c => by simp [e0, Zu, ZP]
  have eu : ∀ i c, e0 (fresh "u") i c = env₁ (fresh "u") i c := fun i c => by simp [e0]
  have eP : ∀ i c, e0 (fresh "P") i c = env₁ (fresh "P") i c := fun i c => by simp [e0]
  have eX : ∀ i n j, n < t.length - 1 → j < tau.length → s.X.val e0 i (n * tau.length + j) = s.X.val env₂ i (n * tau.length + j) := by
    intro i n j hn hj
    rw [b.X _ i n j hn hj, b.X _ i n j hn hj, ex]
    simp only [eK]
  have step : ∀ n < t.length - 1, qnorm S m (fun i => env₁ (fresh "x") i (n + 1) - env₂ (fresh "x") i (n + 1)) ≤
      qnorm S m (fun i => env₁ (fresh "x") i n - env₂ (fresh "x") i n) +
      (C * c + c) * ((nd t (n + 1) - nd t n) * (Lu * δ n) + (nd t (n + 1) - nd t n + 1) * (tol₁ + tol₂)) ∧
      ∀ j < tau.length, qnorm S m (fun i => s.X.val env₁ i (n * tau.length + j) - s.X.val env₂ i (n * tau.length + j)) ≤
        C * (qnorm S m (fun i => env₁ (fresh "x") i n - env₂ (fresh "x") i n) + (nd t (n + 1) - nd t n) * (c * (tol₁ + tol₂ + Lu * δ n))) := by
    intro n hn
    set h := nd t (n + 1) - nd t n with hh
    have hh0 : 0 < h := sub_pos.mpr (ht n hn)
    have hδn := hδ0 n hn
    set r := tol₁ + tol₂ + Lu * δ n with hr
    have hr0 : 0 ≤ r := by positivity
    let k : ℕ → ℕ → ℝ := fun i l => h * (env₁ (fresh "K") i (n * tau.length + l) - env₂ (fresh "K") i (n * tau.length + l))
    have hE : ∀ j < tau.length, ∀ i, (env₁ (fresh "x") i n - env₂ (fresh "x") i n) + stageSum tau k i j =
        s.X.val env₁ i (n * tau.length + j) - s.X.val env₂ i (n * tau.length + j) := by
      intro j hj i
      rw [b.X env₁ i n j hn hj, b.X env₂ i n j hn hj, ← hh]
      simp only [stageSum, k, mul_assoc, ← Finset.mul_sum, sub_mul, Finset.sum_sub_distrib]
      ring
    obtain ⟨h1, hX⟩ := hst (fun i => env₁ (fresh "x") i n - env₂ (fresh "x") i n) k (h * (c * r)) (by positivity) (by
      intro j hj
      rw [sform_congr (fun _ _ => rfl) fun i _ => hE j hj i, qnorm_congr fun i _ => hE j hj i]
      have hcc : n * tau.length + j < (t.length - 1) * tau.length := block_lt hn hj
      obtain ⟨e₁, a₁⟩ := exists_atPoint hcs pre b.toCore env₁ hcc
      obtain ⟨e₂, a₂⟩ := exists_atPoint hcs pre b.toCore env₂ hcc
      obtain ⟨e₃, a₃⟩ := exists_atPoint hcs pre b.toCore e0 hcc
      have v₁ := a₁.vals pre b.toCore
      have v₂ := a₂.vals pre b.toCore
      have v₃ := a₃.vals pre b.toCore
      rw [div_block hj] at v₁ v₂ v₃
      have hdata := lu.lip e₃ e₂ (fun i hi => by rw [v₃.xdot i hi, v₂.xdot i hi, eK])
        (fun i hi => by rw [v₃.x i hi, v₂.x i hi, eX i n j hn hj])
        (fun i hi => by rw [v₃.z i hi, v₂.z i hi, eZ]) (by rw [v₃.t, v₂.t]) (fun i hi l hl => by rw [v₃.tdp i hi l hl, v₂.tdp i hi l hl]) (δ n)
        (fun i hi => by rw [v₃.u i hi, v₂.u i hi, eu]; exact hu n hn i hi)
        (fun i hi => by
          rw [v₃.p i hi, v₂.p i hi, eP]
          have := hp _ hcc i hi
          rwa [div_block hj] at this)
      have hsame := sameInputs_atPoint fresh freshI casadiPoints csFunction dae t tau.length method tdp_fun d xdot res tau F rep s pre b _
        env₁ e0 e₁ e₃ a₁ a₃ (fun i _ => by rw [b.u]; exact (eu i _).symm) (fun i _ => by rw [b.p]; exact (eP i _).symm)
      have h2 := con.contractive e₁ e₃ hsame
      rw [hm] at h2
      set E : ℕ → ℝ := fun i => s.X.val env₁ i (n * tau.length + j) - s.X.val env₂ i (n * tau.length + j) with hEdef
      have h3 : sform S m (fun i => ode.val e₁ i 0 - ode.val e₃ i 0) E ≤ 0 := by
        refine le_trans (le_of_eq ?_) h2
        refine Finset.sum_congr rfl fun i hi => Finset.sum_congr rfl fun l hl => ?_
        have hi := hrow i (Finset.mem_range.mp hi)
        have hl := hrow l (Finset.mem_range.mp hl)
        rw [v₁.x i hi, v₁.x l hl, v₃.x i hi, v₃.x l hl, eX i n j hn hj, eX l n j hn hj]
      have hk : ∀ i < m, k i j = h * (ode.val e₁ i 0 - ode.val e₃ i 0) + h * (res.val e₁ i 0 - res.val e₃ i 0) := by
        intro i hi
        have g1 := con.explicit e₁ i (by rw [hm]; exact hi)
        have g2 := con.explicit e₃ i (by rw [hm]; exact hi)
        rw [v₁.xdot i (hrow i hi)] at g1
        rw [v₃.xdot i (hrow i hi), eK] at g2
        rw [g1, g2]
        simp only [k]
        ring
      rw [sform_congr hk fun _ _ => rfl]
      have h4 : sform S m (fun i => h * (ode.val e₁ i 0 - ode.val e₃ i 0) + h * (res.val e₁ i 0 - res.val e₃ i 0)) E =
          h * sform S m (fun i => ode.val e₁ i 0 - ode.val e₃ i 0) E + h * sform S m (fun i => res.val e₁ i 0 - res.val e₃ i 0) E := by
        simp only [sform, Finset.mul_sum, ← Finset.sum_add_distrib]
        refine Finset.sum_congr rfl fun i _ => Finset.sum_congr rfl fun l _ => ?_
        ring
      rw [h4]
      have h5 := hpd.cauchy (fun i => res.val e₁ i 0 - res.val e₃ i 0) E
      have h6 := hmax (fun i => res.val e₁ i 0 - res.val e₃ i 0) r hr0 (fun i hi => by
        have hi' : i < res.rows := lt_of_lt_of_le (by rw [hm]; exact hi) con.rows
        have k1 := r₁ _ hcc i hi'
        have k2 := r₂ _ hcc i hi'
        have k3 := hdata i hi'
        rw [(a₁.out hcs pre b.toCore hcc).1 i hi'] at k1
        rw [(a₂.out hcs pre b.toCore hcc).1 i hi'] at k2
        rw [abs_le] at k1 k2 k3 ⊢
        rw [hr]
        constructor <;> linarith)
      have h7 : 0 ≤ qnorm S m E := qnorm_nonneg _
      have h8 := mul_le_mul_of_nonneg_right h6 h7
      have h9 : sform S m (fun i => res.val e₁ i 0 - res.val e₃ i 0) E ≤ 2 * (c * r * qnorm S m E) := by linarith
      have h10 := mul_le_mul_of_nonneg_left h9 hh0.le
      have h11 := mul_nonpos_of_nonneg_of_nonpos hh0.le h3
      linarith)
    have h2 : ∀ i < m, |(env₁ (fresh "x") i (n + 1) - env₂ (fresh "x") i (n + 1)) -
        ((env₁ (fresh "x") i n - env₂ (fresh "x") i n) + ∑ l ∈ Finset.range tau.length, k i l * wb tau l)| ≤ tol₁ + tol₂ := by
      intro i hi
      have e₁ := c₁ n hn i (hrow i hi)
      have e₂ := c₂ n hn i (hrow i hi)
      rw [b.cont _ i n hn, ← hh] at e₁ e₂
      have h3 : ∑ l ∈ Finset.range tau.length, k i l * wb tau l =
          h * ∑ l ∈ Finset.range tau.length, env₁ (fresh "K") i (n * tau.length + l) * wb tau l -
          h * ∑ l ∈ Finset.range tau.length, env₂ (fresh "K") i (n * tau.length + l) * wb tau l := by
        simp only [k, mul_assoc, ← Finset.mul_sum, sub_mul, Finset.sum_sub_distrib]
        ring
      rw [h3]
      rw [abs_le] at e₁ e₂ ⊢
      constructor <;> linarith [e₁.1, e₁.2, e₂.1, e₂.2]
    have h3 := hmax _ _ htol h2
    have h4 : qnorm S m (fun i => env₁ (fresh "x") i (n + 1) - env₂ (fresh "x") i (n + 1)) ≤
        qnorm S m (fun i => (env₁ (fresh "x") i n - env₂ (fresh "x") i n) + ∑ l ∈ Finset.range tau.length, k i l * wb tau l) +
        qnorm S m (fun i => (env₁ (fresh "x") i (n + 1) - env₂ (fresh "x") i (n + 1)) -
        ((env₁ (fresh "x") i n - env₂ (fresh "x") i n) + ∑ l ∈ Finset.range tau.length, k i l * wb tau l)) := by
      refine le_trans (le_of_eq (qnorm_congr fun i _ => ?_)) (hpd.triangle _ _)
      ring
    have h5 : 0 ≤ C * c * (tol₁ + tol₂) := by positivity
    have h6 : 0 ≤ c * h * r := by positivity
    rw [hr] at h1 h6
    refine ⟨by linarith, fun j hj => ?_⟩
    rw [← qnorm_congr fun i _ => hE j hj i]
    exact hX j hj
  have hmono : ∀ n ≤ t.length - 1, 0 ≤ nd t n - nd t 0 := by
    intro n
    induction n with
    | zero => intro _; simp
    | succ n ih =>
      intro hn
      have := ht n hn
      have := ih (by omega)
      linarith
  have hsum : ∀ n ≤ t.length - 1, 0 ≤ ∑ l ∈ Finset.range n, (nd t (l + 1) - nd t l) * (Lu * δ l) := fun n hn =>
    Finset.sum_nonneg fun l hl => by
      have hl := Finset.mem_range.mp hl
      have := ht l (by omega)
      exact mul_nonneg (by linarith) (mul_nonneg hLu (hδ0 l (by omega)))
  have main : ∀ n ≤ t.length - 1, qnorm S m (fun i => env₁ (fresh "x") i n - env₂ (fresh "x") i n) ≤
      qnorm S m (fun i => env₁ (fresh "x") i 0 - env₂ (fresh "x") i 0) +
      (C * c + c) * (∑ l ∈ Finset.range n, (nd t (l + 1) - nd t l) * (Lu * δ l) + (nd t n - nd t 0 + n) * (tol₁ + tol₂)) := by
    intro n
    induction n with
    | zero => intro _; simp
    | succ n ih =>
      intro hn
      refine (step n hn).1.trans ((add_le_add (ih (by omega)) le_rfl).trans (le_of_eq ?_))
      rw [Finset.sum_range_succ]
      push_cast
      ring
  have hCc : 0 ≤ C * c + c := by positivity
  refine ⟨fun n hn => (main n hn).trans ?_, fun n hn j hj => ((step n hn).2 j hj).trans ?_⟩
  · have h1 := hmono n hn
    have h2 : 0 ≤ ∑ l ∈ Finset.range n, (nd t (l + 1) - nd t l) * (Lu * δ l) + (nd t n - nd t 0 + n) * (tol₁ + tol₂) :=
      add_nonneg (hsum n hn) (by positivity)
    have h3 : C * c + c ≤ (C + 1) * (C * c + c) + C := by nlinarith
    exact add_le_add le_rfl (mul_le_mul_of_nonneg_right h3 h2)
  · have h1 := hmono n hn.le
    have h2 : 0 ≤ (nd t n - nd t 0 + n) * (tol₁ + tol₂) := by positivity
    have h3 : 0 ≤ (nd t (n + 1) - nd t n) * (tol₁ + tol₂ + Lu * δ n) :=
      mul_nonneg (sub_nonneg.mpr (ht n hn).le) (add_nonneg htol (mul_nonneg hLu (hδ0 n hn)))
    have h4 : 0 ≤ qnorm S m (fun i => env₁ (fresh "x") i 0 - env₂ (fresh "x") i 0) := qnorm_nonneg _
    have h5 := mul_le_mul_of_nonneg_left (add_le_add (main n hn.le)
      (le_refl ((nd t (n + 1) - nd t n) * (c * (tol₁ + tol₂ + Lu * δ n))))) hC
    refine h5.trans ?_
    have h6 := hsum n hn.le
    rw [Finset.sum_range_succ]
    set q := qnorm S m (fun i => env₁ (fresh "x") i 0 - env₂ (fresh "x") i 0)
    set σ := ∑ l ∈ Finset.range n, (nd t (l + 1) - nd t l) * (Lu * δ l)
    set A := σ + (nd t n - nd t 0 + n) * (tol₁ + tol₂) with hA
    have hA0 : 0 ≤ A := add_nonneg h6 h2
    set D := (nd t (n + 1) - nd t n) * (tol₁ + tol₂ + Lu * δ n) with hD
    have e1 : q + (σ + (nd t (n + 1) - nd t n) * (Lu * δ n)) + (nd t (n + 1) - nd t 0 + n) * (tol₁ + tol₂) = q + (A + D) := by
      rw [hA, hD]; ring
    have e2 : (nd t (n + 1) - nd t n) * (c * (tol₁ + tol₂ + Lu * δ n)) = c * D := by rw [hD]; ring
    rw [e1, e2]
    have p1 : 0 ≤ (C + 1) * (C * c + c) * q := by positivity
    have p2 : 0 ≤ C * A := by positivity
    have p3 : 0 ≤ (C * c + c) * A := by positivity
    have p4 : 0 ≤ C * (C * c) * D := by positivity
    have p5 : 0 ≤ (C * c + c + C) * D := by positivity
    nlinarith

/-- **C141** (integrator, contractive models) The same for two calls of the integrator with a root finder that solves the equations up to the
tolerance `tol`, component by component and for steps of any length. -/
theorem C141_contractive_integrator (tau : List ℝ) (hnode : IsGauss tau ∨ IsRadau tau) (S : ℕ → ℕ → ℝ) (m : ℕ) (hpd : PosDefForm S m) :
    ∃ C ≥ 0, ∀ (fresh freshI : String → ℕ) (casadiPoints : ℕ → String → Except PyErr (List ℝ))
      (csFunction : List (MXExpr ℝ) → List (MXExpr ℝ) → Except PyErr (CsFn ℝ))
      (dae : DaeObj ℝ) (t : List ℝ) (order : ℕ) (method : String) (tdp_fun : Option (ℝ → Mat ℝ))
      (d : DaeObj ℝ) (xdot res ode : MXExpr ℝ) (F : CsFn ℝ), IsCsFunction csFunction →
      SchemePre freshI casadiPoints csFunction dae t order method tdp_fun d xdot res tau F →
      DistinctSyms fresh → dae.np = 0 ∨ dae.nq = 0 → d.nx = m → ContractiveOde d xdot res ode S →
      ∀ Lu, LipschitzInData d xdot res Lu → (∀ n < t.length - 1, nd t n < nd t (n + 1)) →
      ∀ (rootfinder : (List ℝ → List ℝ) → List ℝ → Except PyErr (List ℝ)) (tol : ℝ), 0 ≤ tol →
      (∀ f w0 sol, rootfinder f w0 = .ok sol → ∀ v ∈ f sol, |v| ≤ tol) →
      ∃ g, Integrator.new fresh freshI casadiPoints csFunction dae t order method tdp_fun = .ok g ∧
      ∀ x0 z0 u p out x0' z0' u' p' out', g.call rootfinder x0 z0 u p = .ok out → g.call rootfinder x0' z0' u' p' = .ok out' →
      ∀ (ε : ℝ) (δ : ℕ → ℝ), 0 ≤ ε → (∀ n < t.length - 1, 0 ≤ δ n) → (∀ i < m, |x0.e i 0 - x0'.e i 0| ≤ ε) →
      (∀ n < t.length - 1, ∀ i < d.nu, |u.e i n - u'.e i n| ≤ δ n) → (∀ n < t.length - 1, ∀ i < d.np, |p.e i 0 - p'.e i 0| ≤ δ n) →
      let bound := fun n : ℕ => C * (ε + ∑ l ∈ Finset.range n, (nd t (l + 1) - nd t l) * (Lu * δ l) + (nd t n - nd t 0 + n + 1) * tol)
      (∀ n < t.length, ∀ i < m, |out.x.e i n - out'.x.e i n| ≤ bound n) ∧
      (∀ n < t.length - 1, ∀ i < m, |out.xf.e i n - out'.xf.e i n| ≤ bound (n + 1)) ∧
      ∀ n < t.length - 1, ∀ j < order, ∀ i < m, |out.X.e i (n * order + j) - out'.X.e i (n * order + j)| ≤ bound (n + 1) := by
  obtain ⟨C, hC, h141⟩ := C141_contractive tau hnode S m hpd
  obtain ⟨c, hc, hmax⟩ := qnorm_le_max S m
  obtain ⟨c', hc', hmin⟩ := max_le_qnorm S m hpd
  refine ⟨c' * (2 * c + 2 * C + 2 * C * c), by positivity, fun fresh freshI casadiPoints csFunction dae t order method tdp_fun d xdot res ode F hcs pre hfr hpq
    hm con Lu lu ht rootfinder tol htol hrf => ?_⟩
  obtain ⟨s, x1, hs, -, hx1v, hnew⟩ := integrator_new fresh freshI casadiPoints csFunction dae t order method tdp_fun d xdot res tau F
    pre
  rw [if_neg (by omega)] at hnew
  have b := pre.built hs
  obtain ⟨px, -⟩ := makeImplicit_parts pre.impl
  have hnx : dae.nx = d.nx := by simp [DaeObj.nx, px]
  have hf : [fresh "x", fresh "K", fresh "Z", fresh "u", fresh "P"].Nodup := by
    simp [hfr.xK, hfr.xZ, hfr.xu, hfr.xP, hfr.KZ, hfr.Ku, hfr.KP, hfr.Zu, hfr.ZP, hfr.uP]
  have htwo := pre.two
  have hpos := pre.pos
  refine ⟨_, hnew, ?_⟩
  intro x0 z0 u p out x0' z0' u' p' out' hout hout' ε δ hε hδ h0 hu hp bound
  unfold Integrator.call at hout hout'
  simp only [bind, Except.bind] at hout hout'
  split at hout
  · cases hout
  rename_i sol hsol
  split at hout'
  · cases hout'
  rename_i sol' hsol'
  have hroot := hrf _ _ _ hsol
  have hroot' := hrf _ _ _ hsol'
  have hout := Except.ok.inj hout
  have hout' := Except.ok.inj hout'
  have hU : ∀ sol u p, s.u.val (Integrator.envOf fresh s sol u p) = u.e := fun sol u p => by
    rw [b.u]
    show Integrator.envOf fresh s sol u p (fresh "u") = _
    unfold Integrator.envOf
    rw [if_neg hfr.xu.symm, if_neg hfr.Ku.symm, if_neg hfr.Zu.symm, if_pos rfl]
  have hP : ∀ sol u p, s.p.val (Integrator.envOf fresh s sol u p) = p.e := fun sol u p => by
    rw [b.p]
    show Integrator.envOf fresh s sol u p (fresh "P") = _
    unfold Integrator.envOf
    rw [if_neg hfr.xP.symm, if_neg hfr.KP.symm, if_neg hfr.ZP.symm, if_neg hfr.uP.symm, if_pos rfl]
  have hinit : ∀ i < d.nx, |s.x.val (Integrator.envOf fresh s sol u p) i 0 - x0.e i 0| ≤ tol := by
    intro i hi
    have := hroot (x1.val (Integrator.envOf fresh s sol u p) i 0 - x0.e i 0)
      (List.mem_append_right _ (List.mem_map.mpr ⟨i, List.mem_range.mpr (by omega), rfl⟩))
    rwa [hx1v] at this
  have hinit' : ∀ i < d.nx, |s.x.val (Integrator.envOf fresh s sol' u' p') i 0 - x0'.e i 0| ≤ tol := by
    intro i hi
    have := hroot' (x1.val (Integrator.envOf fresh s sol' u' p') i 0 - x0'.e i 0)
      (List.mem_append_right _ (List.mem_map.mpr ⟨i, List.mem_range.mpr (by omega), rfl⟩))
    rwa [hx1v] at this
  have k := h141 fresh freshI casadiPoints csFunction dae t order method tdp_fun d xdot res ode F false s hcs pre hs hf hm con Lu lu
    (by rw [b.N_eq]; exact ht)
    (Integrator.envOf fresh s sol u p) (Integrator.envOf fresh s sol' u' p') tol tol htol htol
    (fun v hv => hroot v (List.mem_append_left _ hv)) (fun v hv => hroot' v (List.mem_append_left _ hv)) δ
    (by rw [b.N_eq]; exact hδ) (by rw [b.N_eq, hU, hU]; exact hu) (fun c hc i hi => by
      rw [hP, hP]
      refine hp _ ?_ i hi
      rw [b.N_eq, b.M_eq] at hc
      rw [b.M_eq]
      exact Nat.div_lt_of_lt_mul (by rwa [Nat.mul_comm]))
  rw [b.N_eq] at k
  have k0 := hmax (fun i => s.x.val (Integrator.envOf fresh s sol u p) i 0 - s.x.val (Integrator.envOf fresh s sol' u' p') i 0) (ε + 2 * tol)
    (by positivity) (fun i hi => by
      have k1 := abs_le.mp (hinit i (by omega))
      have k2 := abs_le.mp (hinit' i (by omega))
      have k3 := abs_le.mp (h0 i hi)
      rw [abs_le]
      constructor <;> linarith)
  have key : ∀ n ≤ t.length - 1, ∀ i < m, |s.x.val (Integrator.envOf fresh s sol u p) i n - s.x.val (Integrator.envOf fresh s sol' u' p') i n| ≤
      bound n := by
    intro n hn i hi
    refine (hmin (fun i => s.x.val (Integrator.envOf fresh s sol u p) i n - s.x.val (Integrator.envOf fresh s sol' u' p') i n) i hi).trans ?_
    have k1 := k.1 n hn
    set σ := ∑ l ∈ Finset.range n, (nd t (l + 1) - nd t l) * (Lu * δ l)
    have hσ : 0 ≤ σ := Finset.sum_nonneg fun l hl => by
      have hl' := Finset.mem_range.mp hl
      have h1 := hδ l (by omega)
      have h2 := (sub_pos.mpr (ht l (by omega))).le
      have h3 := lu.nonneg
      positivity
    have hT : 0 ≤ nd t n - nd t 0 := by
      clear k1 σ hσ bound
      induction n with
      | zero => simp
      | succ n ih => have := ih (by omega); have := ht n (by omega); linarith
    simp only [bound]
    rw [mul_assoc]
    refine mul_le_mul_of_nonneg_left ?_ hc'
    have h1 : 0 ≤ (nd t n - nd t 0 + n) * tol := by positivity
    have h2 : 0 ≤ C * ε := by positivity
    have h3 : 0 ≤ C * tol := by positivity
    have h4 : 0 ≤ c * σ := by positivity
    have h5 : 0 ≤ c * ((nd t n - nd t 0 + n) * tol) := by positivity
    have h6 : 0 ≤ C * σ := by positivity
    have h7 : 0 ≤ c * ε := by positivity
    have h8 : 0 ≤ C * c * (ε + σ + (nd t n - nd t 0 + n + 1) * tol) := by positivity
    nlinarith
  have keyX : ∀ n < t.length - 1, ∀ j < order, ∀ i < m, |s.X.val (Integrator.envOf fresh s sol u p) i (n * order + j) -
      s.X.val (Integrator.envOf fresh s sol' u' p') i (n * order + j)| ≤ bound (n + 1) := by
    intro n hn j hj i hi
    refine (hmin (fun i => s.X.val (Integrator.envOf fresh s sol u p) i (n * order + j) -
      s.X.val (Integrator.envOf fresh s sol' u' p') i (n * order + j)) i hi).trans ?_
    have k1 := k.2 n hn j (by rw [b.M_eq]; exact hj)
    rw [b.M_eq] at k1
    set σ := ∑ l ∈ Finset.range (n + 1), (nd t (l + 1) - nd t l) * (Lu * δ l) with hσd
    have hσ : 0 ≤ σ := Finset.sum_nonneg fun l hl => by
      have hl' := Finset.mem_range.mp hl
      have h1 := hδ l (by omega)
      have h2 := (sub_pos.mpr (ht l (by omega))).le
      have h3 := lu.nonneg
      positivity
    have hT : ∀ n ≤ t.length - 1, 0 ≤ nd t n - nd t 0 := by
      intro n hn
      induction n with
      | zero => simp
      | succ n ih => have := ih (by omega); have := ht n (by omega); linarith
    have hT := hT (n + 1) hn
    simp only [bound]
    rw [mul_assoc, ← hσd]
    refine mul_le_mul_of_nonneg_left ?_ hc'
    have q0 : (0 : ℝ) ≤ n := Nat.cast_nonneg n
    have h0 := mul_le_mul_of_nonneg_left k0 hC
    push_cast
    set A := (nd t (n + 1) - nd t 0 + n) * tol with hA
    have hA0 : 0 ≤ A := by positivity
    have e1 : (nd t (n + 1) - nd t 0 + n) * (tol + tol) = 2 * A := by rw [hA]; ring
    have e2 : (nd t (n + 1) - nd t 0 + (n + 1) + 1) * tol = A + 2 * tol := by rw [hA]; ring
    rw [e1] at k1
    rw [e2]
    have h1 : 0 ≤ C * (ε + σ + A + tol) := by positivity
    have h2 : 0 ≤ c * (ε + σ + A + tol) := by positivity
    have h3 : 0 ≤ C * c * (ε + σ + A + tol) := by positivity
    have h4 : 0 ≤ C * ε := by positivity
    have h5 : 0 ≤ C * σ := by positivity
    have h6 : 0 ≤ C * tol := by positivity
    have h7 : 0 ≤ c * tol := by positivity
    have h8 : 0 ≤ C * c * tol := by positivity
    have h9 : 0 ≤ C * c * ε := by positivity
    have h10 : 0 ≤ C * c * σ := by positivity
    have h11 : 0 ≤ C * c * A := by positivity
    nlinarith
  refine ⟨fun n hn i hi => ?_, fun n hn i hi => ?_, fun n hn j hj i hi => ?_⟩
  · rw [← hout, ← hout']
    exact key n (by omega) i hi
  · rw [← hout, ← hout']
    exact key (n + 1) (by omega) i hi
  · rw [← hout, ← hout']
    exact keyX n hn j hj i hi

/-! ## Non-vacuity -/

/-- The right-hand side `u - l*x`. -/
def lagF (l : ℝ) : Env ℝ → ℕ → ℝ := fun env _ => env 2 0 0 - l * env 0 0 0

theorem lag_laws (l : ℝ) (hl : 0 ≤ l) (freshI : String → ℕ) (q : ℕ) (g : Env ℝ → ℕ → ℝ) :
    ContractiveOde (odeUD freshI 1 1 0 q (lagF l) g) (.sym (freshI "xdot") 1) (odeRes freshI 1 (lagF l))
      ⟨1, 1, false, fun env _ _ => lagF l env 0⟩ (fun _ _ => 1) ∧
    LipschitzInData (odeUD freshI 1 1 0 q (lagF l) g) (.sym (freshI "xdot") 1) (odeRes freshI 1 (lagF l)) 1 := by
  refine ⟨⟨le_rfl, fun e i hi => ?_, fun e e' h => ?_⟩, zero_le_one, fun e e' hxd hx _ _ _ δ hu _ i hi => ?_⟩
  · obtain rfl : i = 0 := by change i < 1 at hi; omega
    simp [odeRes, MXExpr.sym, lagF]
  · have hu : e 2 0 0 = e' 2 0 0 := h.u 0 Nat.one_pos
    show ∑ i ∈ Finset.range 1, ∑ j ∈ Finset.range 1, _ ≤ _
    simp only [Finset.sum_range_one, one_mul, odeUD, MXExpr.sym, lagF]
    rw [hu]
    nlinarith [mul_nonneg hl (sq_nonneg (e 0 0 0 - e' 0 0 0))]
  · change i < 1 at hi
    obtain rfl : i = 0 := by omega
    have h1 : e (freshI "xdot") 0 0 = e' (freshI "xdot") 0 0 := hxd 0 Nat.one_pos
    have h2 : e 0 0 0 = e' 0 0 0 := hx 0 Nat.one_pos
    have h3 : |e 2 0 0 - e' 2 0 0| ≤ δ := hu 0 Nat.one_pos
    simp only [odeRes, if_true, lagF, hi]
    rw [h1, h2, abs_le]
    rw [abs_le] at h3
    constructor <;> linarith

/-- `x' = u - l*x` with any `l ≥ 0` and any increasing grid: one constant bounds the influence of the inputs. -/
example (tau : List ℝ) (hnode : IsGauss tau ∨ IsRadau tau) (hpos : 0 < tau.length) (freshI : String → ℕ) (hI : 6 ≤ freshI "xdot") :
    ∃ C ≥ 0, ∀ (l : ℝ) (t : List ℝ), 0 ≤ l → 2 ≤ t.length → (∀ n < t.length - 1, nd t n < nd t (n + 1)) →
      ∀ (rootfinder : (List ℝ → List ℝ) → List ℝ → Except PyErr (List ℝ)), (∀ f w0 sol, rootfinder f w0 = .ok sol → ∀ v ∈ f sol, v = 0) →
      ∃ g, Integrator.new exFresh freshI (fun _ _ => .ok tau) idealCsFunction (odeUO 1 1 0 0 (lagF l) fun _ _ => 0) t tau.length "legendre" none =
          .ok g ∧
        ∀ x0 z0 u p out u' out', g.call rootfinder x0 z0 u p = .ok out → g.call rootfinder x0 z0 u' p = .ok out' →
        ∀ n < t.length, |out.x.e 0 n - out'.x.e 0 n| ≤ C * ∑ k ∈ Finset.range n, (nd t (k + 1) - nd t k) * |u.e 0 k - u'.e 0 k| := by
  have hq : PosDefForm (fun _ _ => 1) 1 := by
    rintro v ⟨i, hi, hv⟩
    obtain rfl : i = 0 := by omega
    simp only [qform, Finset.sum_range_one, one_mul]
    exact mul_self_pos.mpr hv
  obtain ⟨C, hC, h⟩ := C141_contractive_integrator tau hnode (fun _ _ => 1) 1 hq
  refine ⟨C, hC, fun l t hl two ht rootfinder hrf => ?_⟩
  obtain ⟨F, pre⟩ := odeU_pre freshI hI 1 1 0 0 (lagF l) (fun _ _ => 0) (fun e e' hx hu hp ht => ⟨fun i hi => by
    simp [lagF, hx 0 Nat.one_pos, hu 0 Nat.one_pos], fun _ h => absurd h (Nat.not_lt_zero _)⟩) rfl t tau two hpos
  obtain ⟨con, lu⟩ := lag_laws l hl freshI 0 fun _ _ => 0
  obtain ⟨g, hg, hb⟩ := h exFresh freshI _ _ _ _ _ _ _ _ _ _ _ _ idealCsFunction_spec pre (by constructor <;> decide) (.inl rfl) rfl con 1 lu ht
    rootfinder 0 le_rfl (fun f w0 sol hs v hv => by rw [hrf f w0 sol hs v hv, abs_zero])
  refine ⟨g, hg, fun x0 z0 u p out u' out' h1 h2 n hn => ?_⟩
  have := (hb x0 z0 u p out x0 z0 u' p out' h1 h2 0 (fun n => |u.e 0 n - u'.e 0 n|) le_rfl (fun _ _ => abs_nonneg _)
    (fun i _ => by rw [sub_self, abs_zero]) (fun n _ i hi => by
      change i < 1 at hi
      obtain rfl : i = 0 := by omega
      exact le_rfl) (fun n _ i hi => absurd hi (Nat.not_lt_zero _))).1 n hn 0 Nat.one_pos
  simp only [mul_zero, add_zero, zero_add, one_mul] at this
  exact this

end CE
