import Verif.Num.PropsStability2

/-! # Property C141: dependence of the quadratures of contractive models on the inputs and parameters, for steps of any length -/

open Set

namespace CE

/-- **C141** (quadratures, contractive models) Gauss or Radau nodes and a positive definite form determine a constant such that for every ordinary
differential equation that is contractive with respect to the form and Lipschitz continuous in the inputs and parameters, every Lipschitz
continuous quadrature expression and every increasing grid: the quadratures of two solutions (up to tolerances) differ at most by the constant
times the sum over the intervals of the length times `Lq` times the bound of the states there plus `Lqu` times the change of the data. -/
theorem C141_contractive_quadrature (tau : List ℝ) (hnode : IsGauss tau ∨ IsRadau tau) (S : ℕ → ℕ → ℝ) (m : ℕ) (hpd : PosDefForm S m) :
    ∃ C ≥ 0, ∀ (fresh freshI : String → ℕ) (casadiPoints : ℕ → String → Except PyErr (List ℝ))
      (csFunction : List (MXExpr ℝ) → List (MXExpr ℝ) → Except PyErr (CsFn ℝ))
      (dae : DaeObj ℝ) (t : List ℝ) (order : ℕ) (method : String) (tdp_fun : Option (ℝ → Mat ℝ))
      (d : DaeObj ℝ) (xdot res ode : MXExpr ℝ) (F : CsFn ℝ) (rep : Bool) (s : Scheme ℝ), IsCsFunction csFunction →
      SchemePre freshI casadiPoints csFunction dae t order method tdp_fun d xdot res tau F →
      Scheme.new fresh freshI casadiPoints csFunction dae t order method tdp_fun rep = .ok s →
      [fresh "x", fresh "K", fresh "Z", fresh "u", fresh "P"].Nodup →
      d.nx = m → d.nz = 0 → ContractiveOde d xdot res ode S → ∀ Lu, LipschitzInData d xdot res Lu →
      ∀ Lq Lqz Lqu, 0 ≤ Lq → LipschitzQuadZ d Lq Lqz → LipschitzInData d xdot d.quad Lqu → (∀ n < s.N, nd t n < nd t (n + 1)) →
      ∀ (env₁ env₂ : Env ℝ) (tol₁ tol₂ : ℝ), 0 ≤ tol₁ → 0 ≤ tol₂ →
      (∀ v ∈ s.eq.vals env₁, |v| ≤ tol₁) → (∀ v ∈ s.eq.vals env₂, |v| ≤ tol₂) →
      ∀ δ : ℕ → ℝ, (∀ n < s.N, 0 ≤ δ n) →
      (∀ n < s.N, ∀ i < d.nu, |s.u.val env₁ i n - s.u.val env₂ i n| ≤ δ n) →
      (∀ c < s.N * s.M, ∀ i < d.np, |s.p.val env₁ i (if rep then c else 0) - s.p.val env₂ i (if rep then c else 0)| ≤ δ (c / s.M)) →
      ∀ ε, 0 ≤ ε → (∀ i < m, |s.x.val env₁ i 0 - s.x.val env₂ i 0| ≤ ε) →
      ∀ n ≤ s.N, ∀ k < d.nq, |s.q.val env₁ k n - s.q.val env₂ k n| ≤
        C * ∑ r ∈ Finset.range n, (nd t (r + 1) - nd t r) * (Lq * (ε + ∑ l ∈ Finset.range (r + 1), (nd t (l + 1) - nd t l) * (Lu * δ l) +
          (nd t (r + 1) - nd t 0 + r) * (tol₁ + tol₂)) + Lqu * δ r) := by
  obtain ⟨C, hC, h141⟩ := C141_contractive tau hnode S m hpd
  obtain ⟨c, hc, hmax⟩ := qnorm_le_max S m
  obtain ⟨c', hc', hmin⟩ := max_le_qnorm S m hpd
  obtain ⟨T, hT⟩ : ∃ T : ButcherTableau ℝ, butcherTableuForCollocationPoints tau = .ok T := ⟨_, butcher_ok tau⟩
  set β := ∑ k ∈ Finset.range tau.length, |T.b.e [k]| with hβ
  have hβ0 : 0 ≤ β := Finset.sum_nonneg fun _ _ => abs_nonneg _
  refine ⟨β * (c' * (C * (c + 1)) + 1), by positivity, fun fresh freshI casadiPoints csFunction dae t order method tdp_fun d xdot res ode F rep s
    hcs pre hs hf hm hz con Lu lu Lq Lqz Lqu hLq lq lqu ht env₁ env₂ tol₁ tol₂ htol₁ htol₂ h₁ h₂ δ hδ hu hp ε hε h0 => ?_⟩
  obtain ⟨-, k⟩ := h141 fresh freshI casadiPoints csFunction dae t order method tdp_fun d xdot res ode F rep s hcs pre hs hf hm con Lu lu ht
    env₁ env₂ tol₁ tol₂ htol₁ htol₂ h₁ h₂ δ hδ hu hp
  have b := pre.built hs
  have hLu := lu.nonneg
  have hLqu := lqu.nonneg
  have hmono : ∀ n ≤ s.N, 0 ≤ nd t n - nd t 0 := by
    intro n
    induction n with
    | zero => intro _; simp
    | succ n ih =>
      intro hn
      have := ht n hn
      have := ih (by omega)
      linarith
  have hsum : ∀ n ≤ s.N, 0 ≤ ∑ l ∈ Finset.range n, (nd t (l + 1) - nd t l) * (Lu * δ l) := fun n hn =>
    Finset.sum_nonneg fun l hl => by
      have hl := Finset.mem_range.mp hl
      have := ht l (by omega)
      exact mul_nonneg (by linarith) (mul_nonneg hLu (hδ l (by omega)))
  let A := fun r : ℕ => ∑ l ∈ Finset.range (r + 1), (nd t (l + 1) - nd t l) * (Lu * δ l) + (nd t (r + 1) - nd t 0 + r) * (tol₁ + tol₂)
  have hA : ∀ r < s.N, 0 ≤ A r := fun r hr => by
    have := hmono (r + 1) hr
    exact add_nonneg (hsum (r + 1) hr) (by positivity)
  have hq0 := hmax _ ε hε h0
  have main := C141_quadrature fresh freshI casadiPoints csFunction dae t order method tdp_fun d xdot res tau F rep s hcs pre hs hf Lq Lqz Lqu lq lqu
    T hT β (by rw [b.M_eq, ← pre.len]) (fun n hn => (ht n hn).le) env₁ env₂ δ (fun r => c' * (C * (c * ε + A r))) (fun _ => 0) hu hp
    (fun n hn j hj i hi => by
      refine (hmin (fun i => s.X.val env₁ i (n * s.M + j) - s.X.val env₂ i (n * s.M + j)) i (by omega)).trans
        (mul_le_mul_of_nonneg_left ((k n hn j hj).trans (mul_le_mul_of_nonneg_left ?_ hC)) hc')
      simp only [A]
      linarith)
    (fun n _ j _ k hk => by omega)
  intro n hn κ hκ
  refine (main n hn κ hκ).trans ?_
  rw [Finset.mul_sum]
  refine Finset.sum_le_sum fun r hr => ?_
  have hr : r < s.N := lt_of_lt_of_le (Finset.mem_range.mp hr) hn
  rw [mul_left_comm (β * _), mul_zero, add_zero]
  refine mul_le_mul_of_nonneg_left ?_ (sub_nonneg.mpr (ht r hr).le)
  have hAr := hA r hr
  have hδr := hδ r hr
  rw [add_assoc ε]
  show _ ≤ β * (c' * (C * (c + 1)) + 1) * (Lq * (ε + A r) + Lqu * δ r)
  rw [mul_assoc β]
  refine mul_le_mul_of_nonneg_left ?_ hβ0
  have p1 : 0 ≤ c' * C * Lq * ε := by positivity
  have p2 : 0 ≤ c' * C * c * (Lq * A r) := by positivity
  have p3 : 0 ≤ Lq * (ε + A r) := by positivity
  have p4 : 0 ≤ c' * (C * (c + 1)) * (Lqu * δ r) := by positivity
  nlinarith

/-- **C141** (integrator, quadratures of contractive models) The bound for the output `qf` of two calls of the integrator. -/
theorem C141_contractive_integrator_quadrature (tau : List ℝ) (hnode : IsGauss tau ∨ IsRadau tau) (S : ℕ → ℕ → ℝ) (m : ℕ)
    (hpd : PosDefForm S m) :
    ∃ C ≥ 0, ∀ (fresh freshI : String → ℕ) (casadiPoints : ℕ → String → Except PyErr (List ℝ))
      (csFunction : List (MXExpr ℝ) → List (MXExpr ℝ) → Except PyErr (CsFn ℝ))
      (dae : DaeObj ℝ) (t : List ℝ) (order : ℕ) (method : String) (tdp_fun : Option (ℝ → Mat ℝ))
      (d : DaeObj ℝ) (xdot res ode : MXExpr ℝ) (F : CsFn ℝ), IsCsFunction csFunction →
      SchemePre freshI casadiPoints csFunction dae t order method tdp_fun d xdot res tau F →
      DistinctSyms fresh → dae.np = 0 ∨ dae.nq = 0 → d.nx = m → d.nz = 0 → ContractiveOde d xdot res ode S →
      ∀ Lu, LipschitzInData d xdot res Lu →
      ∀ Lq Lqz Lqu, 0 ≤ Lq → LipschitzQuadZ d Lq Lqz → LipschitzInData d xdot d.quad Lqu → (∀ n < t.length - 1, nd t n < nd t (n + 1)) →
      ∀ (rootfinder : (List ℝ → List ℝ) → List ℝ → Except PyErr (List ℝ)) (tol : ℝ), 0 ≤ tol →
      (∀ f w0 sol, rootfinder f w0 = .ok sol → ∀ v ∈ f sol, |v| ≤ tol) →
      ∃ g, Integrator.new fresh freshI casadiPoints csFunction dae t order method tdp_fun = .ok g ∧
      ∀ x0 z0 u p out x0' z0' u' p' out', g.call rootfinder x0 z0 u p = .ok out → g.call rootfinder x0' z0' u' p' = .ok out' →
      ∀ (ε : ℝ) (δ : ℕ → ℝ), 0 ≤ ε → (∀ n < t.length - 1, 0 ≤ δ n) → (∀ i < m, |x0.e i 0 - x0'.e i 0| ≤ ε) →
      (∀ n < t.length - 1, ∀ i < d.nu, |u.e i n - u'.e i n| ≤ δ n) → (∀ n < t.length - 1, ∀ i < d.np, |p.e i 0 - p'.e i 0| ≤ δ n) →
      let N := t.length - 1
      ∀ k < d.nq, |out.qf.e k 0 - out'.qf.e k 0| ≤ C * ∑ r ∈ Finset.range N, (nd t (r + 1) - nd t r) *
        (Lq * (ε + 2 * tol + ∑ l ∈ Finset.range (r + 1), (nd t (l + 1) - nd t l) * (Lu * δ l) +
          (nd t (r + 1) - nd t 0 + r) * (tol + tol)) + Lqu * δ r) := by
  obtain ⟨C, hC, h141⟩ := C141_contractive_quadrature tau hnode S m hpd
  refine ⟨C, hC, fun fresh freshI casadiPoints csFunction dae t order method tdp_fun d xdot res ode F hcs pre hfr hpq
    hm hz con Lu lu Lq Lqz Lqu hLq lq lqu ht rootfinder tol htol hrf => ?_⟩
  obtain ⟨s, x1, hs, -, hx1v, hnew⟩ := integrator_new fresh freshI casadiPoints csFunction dae t order method tdp_fun d xdot res tau F
    pre
  rw [if_neg (by omega)] at hnew
  have b := pre.built hs
  obtain ⟨px, -⟩ := makeImplicit_parts pre.impl
  have hnx : dae.nx = d.nx := by simp [DaeObj.nx, px]
  have hf : [fresh "x", fresh "K", fresh "Z", fresh "u", fresh "P"].Nodup := by
    simp [hfr.xK, hfr.xZ, hfr.xu, hfr.xP, hfr.KZ, hfr.Ku, hfr.KP, hfr.Zu, hfr.ZP, hfr.uP]
  have htwo := pre.two
  have hpos := pre.pos
  refine ⟨_, hnew, ?_⟩
  intro x0 z0 u p out x0' z0' u' p' out' hout hout' ε δ hε hδ h0 hu hp N κ hκ
  unfold Integrator.call at hout hout'
  simp only [bind, Except.bind] at hout hout'
  split at hout
  · cases hout
  rename_i sol hsol
  split at hout'
  · cases hout'
  rename_i sol' hsol'
  have hroot := hrf _ _ _ hsol
  have hroot' := hrf _ _ _ hsol'
  have hout := Except.ok.inj hout
  have hout' := Except.ok.inj hout'
  have hU : ∀ sol u p, s.u.val (Integrator.envOf fresh s sol u p) = u.e := fun sol u p => by
    rw [b.u]
    show Integrator.envOf fresh s sol u p (fresh "u") = _
    unfold Integrator.envOf
    rw [if_neg hfr.xu.symm, if_neg hfr.Ku.symm, if_neg hfr.Zu.symm, if_pos rfl]
  have hP : ∀ sol u p, s.p.val (Integrator.envOf fresh s sol u p) = p.e := fun sol u p => by
    rw [b.p]
    show Integrator.envOf fresh s sol u p (fresh "P") = _
    unfold Integrator.envOf
    rw [if_neg hfr.xP.symm, if_neg hfr.KP.symm, if_neg hfr.ZP.symm, if_neg hfr.uP.symm, if_pos rfl]
  have hinit : ∀ i < d.nx, |s.x.val (Integrator.envOf fresh s sol u p) i 0 - x0.e i 0| ≤ tol := by
    intro i hi
    have := hroot (x1.val (Integrator.envOf fresh s sol u p) i 0 - x0.e i 0)
      (List.mem_append_right _ (List.mem_map.mpr ⟨i, List.mem_range.mpr (by omega), rfl⟩))
    rwa [hx1v] at this
  have hinit' : ∀ i < d.nx, |s.x.val (Integrator.envOf fresh s sol' u' p') i 0 - x0'.e i 0| ≤ tol := by
    intro i hi
    have := hroot' (x1.val (Integrator.envOf fresh s sol' u' p') i 0 - x0'.e i 0)
      (List.mem_append_right _ (List.mem_map.mpr ⟨i, List.mem_range.mpr (by omega), rfl⟩))
    rwa [hx1v] at this
  have hpos' : 0 < s.M := by rw [b.M_eq]; exact pre.len ▸ hpos
  have hN := b.N_eq
  have key := h141 fresh freshI casadiPoints csFunction dae t order method tdp_fun d xdot res ode F false s hcs pre hs hf hm hz con Lu lu
    Lq Lqz Lqu hLq lq lqu (by rw [hN]; exact ht)
    (Integrator.envOf fresh s sol u p) (Integrator.envOf fresh s sol' u' p') tol tol htol htol
    (fun v hv => hroot v (List.mem_append_left _ hv)) (fun v hv => hroot' v (List.mem_append_left _ hv)) δ (by rw [hN]; exact hδ)
    (fun n hn i hi => by rw [hU, hU]; exact hu n (by omega) i hi)
    (fun c hc i hi => by
      rw [hP, hP]
      exact hp (c / s.M) (by rw [← hN]; exact (Nat.div_lt_iff_lt_mul hpos').mpr hc) i hi)
    (ε + 2 * tol) (by positivity) (fun i hi => by
      have h1 := abs_le.mp (hinit i (by omega))
      have h2 := abs_le.mp (hinit' i (by omega))
      have h3 := abs_le.mp (h0 i hi)
      rw [abs_le]
      constructor <;> linarith) (t.length - 1) (by rw [hN]) κ hκ
  rw [← hout, ← hout']
  show |s.q.val _ κ (s.q.cols - 1) - s.q.val _ κ (s.q.cols - 1)| ≤ _
  rw [b.q_shape.2, Nat.add_sub_cancel]
  exact key

/-! ## Non-vacuity -/

/-- The quadrature expression `x + u`. -/
def lagG : Env ℝ → ℕ → ℝ := fun env _ => env 0 0 0 + env 2 0 0

theorem lagG_lip (l : ℝ) (freshI : String → ℕ) : LipschitzQuadZ (odeUD freshI 1 1 0 1 (lagF l) lagG) 1 0 ∧
    LipschitzInData (odeUD freshI 1 1 0 1 (lagF l) lagG) (.sym (freshI "xdot") 1) (odeUD freshI 1 1 0 1 (lagF l) lagG).quad 1 := by
  refine ⟨fun e e' hu _ _ _ δ η hx _ k hk => ?_, zero_le_one, fun e e' _ hx _ _ _ δ hu _ i _ => ?_⟩
  · have h1 : |e 0 0 0 - e' 0 0 0| ≤ δ := hx 0 Nat.one_pos
    have h2 : e 2 0 0 = e' 2 0 0 := hu 0 Nat.one_pos
    simp only [odeUD, lagG]
    rw [h2, add_sub_add_right_eq_sub]
    linarith
  · have h1 : e 0 0 0 = e' 0 0 0 := hx 0 Nat.one_pos
    have h2 : |e 2 0 0 - e' 2 0 0| ≤ δ := hu 0 Nat.one_pos
    simp only [odeUD, lagG]
    rw [h1, add_sub_add_left_eq_sub]
    linarith

/-- `x' = u - l*x` with the quadrature `x + u`, any `l ≥ 0` and any increasing grid: the quadratures of two solutions with the same initial
states differ at most by a constant times the sum over the intervals of the length times the difference of the inputs there plus the
accumulated difference of the inputs up to there. -/
example (tau : List ℝ) (hnode : IsGauss tau ∨ IsRadau tau) (hpos : 0 < tau.length) (freshI : String → ℕ) (hI : 6 ≤ freshI "xdot") :
    ∃ C ≥ 0, ∀ (l : ℝ) (t : List ℝ), 0 ≤ l → 2 ≤ t.length → (∀ n < t.length - 1, nd t n < nd t (n + 1)) →
      ∃ s, Scheme.new exFresh freshI (fun _ _ => .ok tau) idealCsFunction (odeUO 1 1 0 1 (lagF l) lagG) t tau.length "legendre" none false =
          .ok s ∧
        ∀ env₁ env₂, (∀ v ∈ s.eq.vals env₁, v = 0) → (∀ v ∈ s.eq.vals env₂, v = 0) → s.x.val env₁ 0 0 = s.x.val env₂ 0 0 →
        ∀ n < t.length, |s.q.val env₁ 0 n - s.q.val env₂ 0 n| ≤ C * ∑ r ∈ Finset.range n, (nd t (r + 1) - nd t r) *
          (∑ l ∈ Finset.range (r + 1), (nd t (l + 1) - nd t l) * |s.u.val env₁ 0 l - s.u.val env₂ 0 l| +
            |s.u.val env₁ 0 r - s.u.val env₂ 0 r|) := by
  have hq : PosDefForm (fun _ _ => 1) 1 := by
    rintro v ⟨i, hi, hv⟩
    obtain rfl : i = 0 := by omega
    simp only [qform, Finset.sum_range_one, one_mul]
    exact mul_self_pos.mpr hv
  obtain ⟨C, hC, h⟩ := C141_contractive_quadrature tau hnode (fun _ _ => 1) 1 hq
  refine ⟨C, hC, fun l t hl two ht => ?_⟩
  obtain ⟨F, pre⟩ := odeU_pre freshI hI 1 1 0 1 (lagF l) lagG (fun e e' hx hu hp ht => ⟨fun i hi => by
    simp [lagF, hx 0 Nat.one_pos, hu 0 Nat.one_pos], fun i hi => by
    simp [lagG, hx 0 Nat.one_pos, hu 0 Nat.one_pos]⟩) rfl t tau two hpos
  obtain ⟨con, lu⟩ := lag_laws l hl freshI 1 lagG
  obtain ⟨s, hs⟩ := C26_constructed exFresh freshI _ _ _ _ _ _ _ _ _ _ _ _ false pre
  have b := pre.built hs
  have hN : s.N = t.length - 1 := b.N_eq
  refine ⟨s, hs, fun env₁ env₂ h1 h2 h0 n hn => ?_⟩
  have := h exFresh freshI _ _ _ _ _ _ _ _ _ _ _ _ _ s idealCsFunction_spec pre hs (by decide) rfl rfl con 1 lu 1 0 1 zero_le_one
    (lagG_lip l freshI).1 (lagG_lip l freshI).2 (by rw [hN]; exact ht) env₁ env₂ 0 0 le_rfl le_rfl (fun v hv => by rw [h1 v hv, abs_zero])
    (fun v hv => by rw [h2 v hv, abs_zero]) (fun n => |s.u.val env₁ 0 n - s.u.val env₂ 0 n|) (fun _ _ => abs_nonneg _)
    (fun n _ i hi => by
      change i < 1 at hi
      obtain rfl : i = 0 := by omega
      exact le_rfl) (fun c _ i hi => absurd hi (Nat.not_lt_zero _)) 0 le_rfl (fun i hi => by
      obtain rfl : i = 0 := by omega
      rw [h0, sub_self, abs_zero]) n (by omega) 0 Nat.one_pos
  simp only [mul_zero, add_zero, zero_add, one_mul] at this
  exact this

/-- The same model with the integrator and a rootfinder that solves exactly: if the inputs of two calls from the same initial state differ at
most by `δ`, the outputs `qf` differ at most by a constant times `δ`, uniformly in `l`. -/
example (tau : List ℝ) (hnode : IsGauss tau ∨ IsRadau tau) (hpos : 0 < tau.length) (freshI : String → ℕ) (hI : 6 ≤ freshI "xdot") :
    ∃ C ≥ 0, ∀ (l : ℝ) (t : List ℝ), 0 ≤ l → 2 ≤ t.length → (∀ n < t.length - 1, nd t n < nd t (n + 1)) →
      ∀ (rootfinder : (List ℝ → List ℝ) → List ℝ → Except PyErr (List ℝ)), (∀ f w0 sol, rootfinder f w0 = .ok sol → ∀ v ∈ f sol, v = 0) →
      ∃ g, Integrator.new exFresh freshI (fun _ _ => .ok tau) idealCsFunction (odeUO 1 1 0 1 (lagF l) lagG) t tau.length "legendre" none =
          .ok g ∧
        ∀ x0 z0 u p out u' out' δ, g.call rootfinder x0 z0 u p = .ok out → g.call rootfinder x0 z0 u' p = .ok out' → 0 ≤ δ →
        (∀ n < t.length - 1, |u.e 0 n - u'.e 0 n| ≤ δ) → |out.qf.e 0 0 - out'.qf.e 0 0| ≤
          C * ∑ r ∈ Finset.range (t.length - 1), (nd t (r + 1) - nd t r) * ((nd t (r + 1) - nd t 0) * δ + δ) := by
  have hq : PosDefForm (fun _ _ => 1) 1 := by
    rintro v ⟨i, hi, hv⟩
    obtain rfl : i = 0 := by omega
    simp only [qform, Finset.sum_range_one, one_mul]
    exact mul_self_pos.mpr hv
  obtain ⟨C, hC, h⟩ := C141_contractive_integrator_quadrature tau hnode (fun _ _ => 1) 1 hq
  refine ⟨C, hC, fun l t hl two ht rootfinder hrf => ?_⟩
  obtain ⟨F, pre⟩ := odeU_pre freshI hI 1 1 0 1 (lagF l) lagG (fun e e' hx hu hp ht => ⟨fun i hi => by
    simp [lagF, hx 0 Nat.one_pos, hu 0 Nat.one_pos], fun i hi => by
    simp [lagG, hx 0 Nat.one_pos, hu 0 Nat.one_pos]⟩) rfl t tau two hpos
  obtain ⟨con, lu⟩ := lag_laws l hl freshI 1 lagG
  obtain ⟨g, hg, hb⟩ := h exFresh freshI _ _ _ _ _ _ _ _ _ _ _ _ idealCsFunction_spec pre (by constructor <;> decide) (.inl rfl) rfl rfl con 1 lu
    1 0 1 zero_le_one (lagG_lip l freshI).1 (lagG_lip l freshI).2 ht
    rootfinder 0 le_rfl (fun f w0 sol hs v hv => by rw [hrf f w0 sol hs v hv, abs_zero])
  refine ⟨g, hg, fun x0 z0 u p out u' out' δ h1 h2 hδ hu => ?_⟩
  have := hb x0 z0 u p out x0 z0 u' p out' h1 h2 0 (fun _ => δ) le_rfl (fun _ _ => hδ)
    (fun i _ => by rw [sub_self, abs_zero]) (fun n hn i hi => by
      change i < 1 at hi
      obtain rfl : i = 0 := by omega
      exact hu n hn) (fun n _ i hi => absurd hi (Nat.not_lt_zero _)) 0 Nat.one_pos
  simp only [mul_zero, add_zero, zero_add, one_mul, ← Finset.sum_mul, Finset.sum_range_sub (nd t)] at this
  exact this

end CE
