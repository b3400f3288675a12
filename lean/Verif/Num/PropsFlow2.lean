import Verif.Num.PropsFlow
import Verif.Num.PropsContract2

/-! # Property C138: integrating twice and in pieces, contractive models and steps of any length -/

namespace CE

section
variable (fresh freshI : String → ℕ) (casadiPoints : ℕ → String → Except PyErr (List ℝ))
    (csFunction : List (MXExpr ℝ) → List (MXExpr ℝ) → Except PyErr (CsFn ℝ))
    (dae : DaeObj ℝ) (t : List ℝ) (order : ℕ) (method : String) (tdp_fun : Option (ℝ → Mat ℝ))
    (d : DaeObj ℝ) (xdot res : MXExpr ℝ) (tau : List ℝ) (F : CsFn ℝ)

/-- Two solutions of the scheme of a contractive model for the same data have the same quadratures. -/
theorem unique_contractive (hcs : IsCsFunction csFunction)
    (pre : SchemePre freshI casadiPoints csFunction dae t order method tdp_fun d xdot res tau F) (s : Scheme ℝ)
    (hs : Scheme.new fresh freshI casadiPoints csFunction dae t order method tdp_fun false = .ok s)
    (lip : LocLipschitzDae d xdot res) (hnode : IsGauss tau ∨ IsRadau tau) (S : ℕ → ℕ → ℝ) (hpd : PosDefForm S d.nx)
    (law : Contractive d xdot res S) (ht : ∀ n < t.length - 1, nd t n < nd t (n + 1))
    (env₁ env₂ : Env ℝ) (h₁ : ∀ v ∈ s.eq.vals env₁, v = 0) (h₂ : ∀ v ∈ s.eq.vals env₂, v = 0)
    (hx : ∀ i < d.nx, s.x.val env₁ i 0 = s.x.val env₂ i 0) (hu : ∀ n < t.length - 1, ∀ i < d.nu, s.u.val env₁ i n = s.u.val env₂ i n)
    (hp : ∀ i < d.np, s.p.val env₁ i 0 = s.p.val env₂ i 0) :
    (∀ n ≤ t.length - 1, ∀ i < d.nx, s.x.val env₁ i n = s.x.val env₂ i n) ∧
    (∀ c < (t.length - 1) * order, (∀ i < d.nx, s.Kd.val env₁ i c = s.Kd.val env₂ i c ∧ s.X.val env₁ i c = s.X.val env₂ i c) ∧
      ∀ k < d.nz, s.Z.val env₁ k c = s.Z.val env₂ k c) ∧
    ∀ n ≤ t.length - 1, ∀ k < d.nq, s.q.val env₁ k n = s.q.val env₂ k n := by
  have b := pre.built hs
  have hN := b.N_eq
  have hM := b.M_eq
  have two := pre.two
  have hnx' := pre.wf.nx
  obtain ⟨ux, uK⟩ := C95_unique fresh freshI casadiPoints csFunction dae t order method tdp_fun d xdot res tau F false s hcs pre hs hnode S hpd
    law (by rw [hN]; exact ht) env₁ env₂ h₁ h₂ hx (by rw [hN]; exact hu) hp
  rw [hN] at ux
  rw [hN, hM] at uK
  have uc : ∀ c < (t.length - 1) * order, (∀ i < d.nx, s.Kd.val env₁ i c = s.Kd.val env₂ i c ∧ s.X.val env₁ i c = s.X.val env₂ i c) ∧
      ∀ k < d.nz, s.Z.val env₁ k c = s.Z.val env₂ k c := by
    refine fun c hc => ⟨uK c hc, fun k hk => ?_⟩
    obtain ⟨e₁, a₁⟩ := exists_atPoint hcs pre b.toCore env₁ hc
    obtain ⟨e₂, a₂⟩ := exists_atPoint hcs pre b.toCore env₂ hc
    have r₁ := (residual_iff fresh freshI casadiPoints csFunction dae t order method tdp_fun d xdot res tau F false s hcs pre b hc a₁).mp
      (((Scheme.eq_zero_iff pre b _).mp h₁).1 c hc)
    have r₂ := (residual_iff fresh freshI casadiPoints csFunction dae t order method tdp_fun d xdot res tau F false s hcs pre b hc a₂).mp
      (((Scheme.eq_zero_iff pre b _).mp h₂).1 c hc)
    have si := sameInputs_atPoint fresh freshI casadiPoints csFunction dae t order method tdp_fun d xdot res tau F false s pre b c _ _
      e₁ e₂ a₁ a₂ (hu _ (Nat.div_lt_of_lt_mul (by rwa [Nat.mul_comm]))) hp
    have := lip.z_eq r₁ r₂ si (fun i hi => by
      rw [a₁.x i (hnx' ▸ hi), a₂.x i (hnx' ▸ hi)]
      exact (uK c hc i hi).2) k hk
    rwa [a₁.z k (pre.wf.nz ▸ hk), a₂.z k (pre.wf.nz ▸ hk)] at this
  refine ⟨ux, uc, fun n hn k hk => ?_⟩
  have hc : Columns s s d false env₂ env₁ (fun n => 0 + n) (fun n => 0 + n) (fun c => 0 * s.M + c) := by
    simp only [Nat.zero_mul, Nat.zero_add]
    refine ⟨fun n hn => ux n (by omega), fun c hc i hi => ((uc c (by rw [hN, hM] at hc; exact hc)).1 i hi).1,
      fun c hc => (uc c (by rw [hN, hM] at hc; exact hc)).2, fun n hn => hu n (by omega), ?_⟩
    intro c hc i hi
    simp only [Bool.false_eq_true, if_false] at hc ⊢
    obtain rfl : c = 0 := by omega
    exact hp i hi
  have := (part_core fresh freshI casadiPoints csFunction dae t order method tdp_fun d xdot res tau F false s s hcs pre hs t 0
    (t.length - 1) (by rw [List.drop_zero, List.take_of_length_le (by omega)]) (by omega) (by omega) hs env₂ env₁ hc).2.2.2.2.2.2
    n hn k hk
  rw [b.q_zero, zero_add, zero_add] at this
  exact this.symm

/-- **C138** (result determined, contractive models) For steps of any length the outputs of the integrator depend neither on the root finder nor on the initial guess of the
algebraic states: two calls with the same initial state, inputs and parameters return the same `x`, `K`, `X`, `Z` and `qf`. -/
theorem C138_contractive_determined (hcs : IsCsFunction csFunction)
    (pre : SchemePre freshI casadiPoints csFunction dae t order method tdp_fun d xdot res tau F)
    (hfr : DistinctSyms fresh) (hpq : dae.np = 0 ∨ dae.nq = 0)
    (lip : LocLipschitzDae d xdot res) (hnode : IsGauss tau ∨ IsRadau tau) (S : ℕ → ℕ → ℝ) (hpd : PosDefForm S d.nx)
    (law : Contractive d xdot res S) (ht : ∀ n < t.length - 1, nd t n < nd t (n + 1)) :
    ∃ g, Integrator.new fresh freshI casadiPoints csFunction dae t order method tdp_fun = .ok g ∧
      ∀ rf rf', IsRootfinder rf → IsRootfinder rf' → ∀ (x0 z0 u p x0' z0' u' p' : Mat ℝ) (out out' : IntegratorOut ℝ),
      g.call rf x0 z0 u p = .ok out → g.call rf' x0' z0' u' p' = .ok out' →
      (∀ i < d.nx, x0'.e i 0 = x0.e i 0) → (∀ n < t.length - 1, ∀ k < d.nu, u'.e k n = u.e k n) → (∀ i < d.np, p'.e i 0 = p.e i 0) →
      OutColumns d (t.length - 1) order out out' id id ∧ ∀ k < d.nq, out'.qf.e k 0 = out.qf.e k 0 := by
  obtain ⟨g, s, hg, hs, hcall⟩ := integrator_calls fresh freshI casadiPoints csFunction dae t order method tdp_fun d xdot res tau F pre hfr hpq
  refine ⟨g, hg, fun rf rf' hrf hrf' x0 z0 u p x0' z0' u' p' out out' ho ho' hx hu hp => ?_⟩
  obtain ⟨env, e1, e2, e3, e4, e5, -, e7, e8, e9, -, e11⟩ := hcall rf hrf _ _ _ _ _ ho
  obtain ⟨env', e1', e2', e3', e4', e5', -, e7', e8', e9', -, e11'⟩ := hcall rf' hrf' _ _ _ _ _ ho'
  obtain ⟨ux, uc, uq⟩ := unique_contractive fresh freshI casadiPoints csFunction dae t order method tdp_fun d xdot res tau F hcs pre s hs lip
    hnode S hpd law ht env' env e1' e1 (fun i hi => by rw [e2' i hi, e2 i hi, hx i hi])
    (fun n hn i hi => by rw [e3', e3]; exact hu n hn i hi) (fun i hi => by rw [e4', e4]; exact hp i hi)
  refine ⟨⟨fun n hn i hi => ?_, fun c hc i hi => ?_, fun c hc i hi => ?_, fun c hc i hi => ?_⟩, fun k hk => ?_⟩
  · rw [e5', e5]; exact ux n hn i hi
  · rw [e8', e8]; exact ((uc c hc).1 i hi).1
  · rw [e7', e7]; exact ((uc c hc).1 i hi).2
  · rw [e9', e9]; exact (uc c hc).2 i hi
  · rw [e11', e11]; exact uq _ le_rfl k hk

/-- **C138** (pieces, contractive models) For steps of any length, integrating over a grid is integrating over its first `m` intervals and then, from the state reached, over the
others: the columns of the outputs are those of the two parts, and the quadratures add up. -/
theorem C138_contractive_flow (hcs : IsCsFunction csFunction)
    (pre : SchemePre freshI casadiPoints csFunction dae t order method tdp_fun d xdot res tau F)
    (hfr : DistinctSyms fresh) (hpq : dae.np = 0 ∨ dae.nq = 0)
    (lip : LocLipschitzDae d xdot res) (hnode : IsGauss tau ∨ IsRadau tau) (S : ℕ → ℕ → ℝ) (hpd : PosDefForm S d.nx)
    (law : Contractive d xdot res S) (ht : ∀ n < t.length - 1, nd t n < nd t (n + 1))
    (m : ℕ) (hm : 0 < m) (hmN : m < t.length - 1) :
    ∃ g g₁ g₂, Integrator.new fresh freshI casadiPoints csFunction dae t order method tdp_fun = .ok g ∧
      Integrator.new fresh freshI casadiPoints csFunction dae (t.take (m + 1)) order method tdp_fun = .ok g₁ ∧
      Integrator.new fresh freshI casadiPoints csFunction dae (t.drop m) order method tdp_fun = .ok g₂ ∧
      ∀ rf rf₁ rf₂, IsRootfinder rf → IsRootfinder rf₁ → IsRootfinder rf₂ →
      ∀ (x0 z0 u p x₁ z₁ u₁ p₁ x₂ z₂ u₂ p₂ : Mat ℝ) (out out₁ out₂ : IntegratorOut ℝ),
      g.call rf x0 z0 u p = .ok out → g₁.call rf₁ x₁ z₁ u₁ p₁ = .ok out₁ → g₂.call rf₂ x₂ z₂ u₂ p₂ = .ok out₂ →
      (∀ i < d.nx, x₁.e i 0 = x0.e i 0) → (∀ n < m, ∀ k < d.nu, u₁.e k n = u.e k n) → (∀ i < d.np, p₁.e i 0 = p.e i 0) →
      (∀ i < d.nx, x₂.e i 0 = out₁.xf.e i (m - 1)) → (∀ n < t.length - 1 - m, ∀ k < d.nu, u₂.e k n = u.e k (m + n)) →
      (∀ i < d.np, p₂.e i 0 = p.e i 0) →
      OutColumns d m order out out₁ id id ∧
      OutColumns d (t.length - 1 - m) order out out₂ (fun n => m + n) (fun c => m * order + c) ∧
      ∀ k < d.nq, out.qf.e k 0 = out₁.qf.e k 0 + out₂.qf.e k 0 := by
  have two := pre.two
  have l₁ : (t.take (m + 1)).length - 1 = m := by rw [List.length_take]; omega
  have l₂ : (t.drop m).length - 1 = t.length - 1 - m := by rw [List.length_drop]; omega
  have pre₁ : SchemePre freshI casadiPoints csFunction dae (t.take (m + 1)) order method tdp_fun d xdot res tau F :=
    ⟨pre.impl, pre.wf, pre.p, pre.quad, by omega, pre.pos, pre.points, pre.len, pre.tdpFun, pre.fn⟩
  have pre₂ : SchemePre freshI casadiPoints csFunction dae (t.drop m) order method tdp_fun d xdot res tau F :=
    ⟨pre.impl, pre.wf, pre.p, pre.quad, by omega, pre.pos, pre.points, pre.len, pre.tdpFun, pre.fn⟩
  obtain ⟨g, s, hg, hs, hcall⟩ := integrator_calls fresh freshI casadiPoints csFunction dae t order method tdp_fun d xdot res tau F pre hfr hpq
  obtain ⟨g₁, s₁, hg₁, hs₁, hcall₁⟩ := integrator_calls fresh freshI casadiPoints csFunction dae _ order method tdp_fun d xdot res tau F pre₁
    hfr hpq
  obtain ⟨g₂, s₂, hg₂, hs₂, hcall₂⟩ := integrator_calls fresh freshI casadiPoints csFunction dae _ order method tdp_fun d xdot res tau F pre₂
    hfr hpq
  refine ⟨g, g₁, g₂, hg, hg₁, hg₂, ?_⟩
  intro rf rf₁ rf₂ hrf hrf₁ hrf₂ x0 z0 u p x₁ z₁ u₁ p₁ x₂ z₂ u₂ p₂ out out₁ out₂ ho ho₁ ho₂ hx₁ hu₁ hp₁ hx₂ hu₂ hp₂
  have b := pre.built hs
  have b₁ := pre₁.built hs₁
  have b₂ := pre₂.built hs₂
  have hN := b.N_eq
  have hM := b.M_eq
  have hN₁ := b₁.N_eq
  have hN₂ := b₂.N_eq
  obtain ⟨env, e1, e2, e3, e4, e5, -, e7, e8, e9, -, e11⟩ := hcall rf hrf _ _ _ _ _ ho
  obtain ⟨env₁, f1, f2, f3, f4, f5, f6, f7, f8, f9, -, f11⟩ := hcall₁ rf₁ hrf₁ _ _ _ _ _ ho₁
  obtain ⟨env₂, g1, g2, g3, g4, g5, -, g7, g8, g9, -, g11⟩ := hcall₂ rf₂ hrf₂ _ _ _ _ _ ho₂
  have c₁ := columns_colEnv hfr b b₁ env id id id
  have c₂ := columns_colEnv hfr b b₂ env (fun n => m + n) (fun n => m + n) (fun c => m * s.M + c)
  obtain ⟨hiff, ⟨hm₁, hsum⟩, X₁, X₂, q₁, q₂⟩ := C77_split fresh freshI casadiPoints csFunction dae t order method tdp_fun d xdot res tau F
    false s hcs pre hs m hm (by omega) s₁ s₂ hs₁ hs₂ env _ _ c₁ c₂
  obtain ⟨h1, h2, -⟩ := hiff.mp e1
  set v₁ := colEnv fresh id id id env
  set v₂ := colEnv fresh (fun n => m + n) (fun n => m + n) (fun c => m * s.M + c) env
  have cp₁ := c₁.p 0 (by simp)
  have cp₂ := c₂.p 0 (by simp)
  simp only [Bool.false_eq_true, if_false] at cp₁ cp₂
  obtain ⟨ux₁, uc₁, uq₁⟩ := unique_contractive fresh freshI casadiPoints csFunction dae _ order method tdp_fun d xdot res tau F hcs pre₁ s₁ hs₁
    lip hnode S hpd law (fun n hn => by
      rw [l₁] at hn
      have e : t.take (m + 1) = (t.drop 0).take (m + 1) := rfl
      rw [nd_part e (show n + 1 ≤ m by omega), nd_part e hn.le, Nat.zero_add, Nat.zero_add]
      exact ht n (by omega)) env₁ v₁ f1 h1
    (fun i hi => by rw [f2 i hi, c₁.x 0 (by omega) i hi, hx₁ i hi]; exact (e2 i hi).symm)
    (fun n hn i hi => by rw [l₁] at hn; rw [f3, c₁.u n (by omega) i hi, e3]; exact hu₁ n hn i hi)
    (fun i hi => by rw [f4, cp₁ i hi, e4]; exact hp₁ i hi)
  rw [l₁] at ux₁ uc₁ uq₁
  obtain ⟨ux₂, uc₂, uq₂⟩ := unique_contractive fresh freshI casadiPoints csFunction dae _ order method tdp_fun d xdot res tau F hcs pre₂ s₂ hs₂
    lip hnode S hpd law (fun n hn => by
      rw [l₂] at hn
      have e : t.drop m = (t.drop m).take (t.length - 1 - m + 1) := by
        rw [List.take_of_length_le]; rw [List.length_drop]; omega
      rw [nd_part e (show n + 1 ≤ t.length - 1 - m by omega), nd_part e hn.le, ← Nat.add_assoc]
      exact ht (m + n) (by omega)) env₂ v₂ g1 h2
    (fun i hi => by
      rw [g2 i hi, c₂.x 0 (by omega) i hi, hx₂ i hi, f6]
      show s₁.x.val env₁ i (m - 1 + 1) = _
      rw [show m - 1 + 1 = m by omega, ux₁ m le_rfl i hi, c₁.x m (by omega) i hi]
      rfl)
    (fun n hn i hi => by rw [l₂] at hn; rw [g3, c₂.u n (by omega) i hi, e3]; exact hu₂ n hn i hi)
    (fun i hi => by rw [g4, cp₂ i hi, e4]; exact hp₂ i hi)
  rw [l₂] at ux₂ uc₂ uq₂
  have k₁ := c₁.k
  have k₂ := c₂.k
  have zz₁ := c₁.z
  have zz₂ := c₂.z
  rw [hN₁, l₁, b₁.M_eq] at k₁ zz₁
  rw [hN₂, l₂, b₂.M_eq] at k₂ zz₂
  rw [hN₁, l₁] at X₁ q₁
  rw [hN₂, l₂] at X₂ q₂
  rw [hM] at k₂ zz₂ X₁ X₂
  refine ⟨⟨fun n hn i hi => ?_, fun c hc i hi => ?_, fun c hc i hi => ?_, fun c hc i hi => ?_⟩,
    ⟨fun n hn i hi => ?_, fun c hc i hi => ?_, fun c hc i hi => ?_, fun c hc i hi => ?_⟩, fun k hk => ?_⟩
  · rw [f5, e5, ux₁ n hn i hi]; exact c₁.x n (by omega) i hi
  · rw [f8, e8, ((uc₁ c hc).1 i hi).1]; exact k₁ c hc i hi
  · rw [f7, e7, ((uc₁ c hc).1 i hi).2]; exact (X₁ c hc i hi).symm
  · rw [f9, e9, (uc₁ c hc).2 i hi]; exact zz₁ c hc i hi
  · rw [g5, e5, ux₂ n hn i hi]; exact c₂.x n (by omega) i hi
  · rw [g8, e8, ((uc₂ c hc).1 i hi).1]; exact k₂ c hc i hi
  · rw [g7, e7, ((uc₂ c hc).1 i hi).2]; exact (X₂ c hc i hi).symm
  · rw [g9, e9, (uc₂ c hc).2 i hi]; exact zz₂ c hc i hi
  · have hq := q₂ (t.length - 1 - m) le_rfl k hk
    rw [show m + (t.length - 1 - m) = t.length - 1 by omega] at hq
    rw [e11, f11, g11, l₁, l₂]
    show s.q.val env k (t.length - 1) = s₁.q.val env₁ k m + s₂.q.val env₂ k (t.length - 1 - m)
    rw [hq, uq₁ m le_rfl k hk, uq₂ _ le_rfl k hk]

end

/-! ## Non-vacuity -/

theorem loop_form (freshI : String → ℕ) : PosDefForm (fun _ _ => 1) (loopD freshI).nx := by
  rintro v ⟨i, hi, hv⟩
  obtain rfl : i = 0 := by change i < 1 at hi; omega
  show 0 < ∑ i ∈ Finset.range 1, ∑ j ∈ Finset.range 1, _
  simp only [Finset.sum_range_one, one_mul]
  exact mul_self_pos.mpr hv

/-- `x' = -z`, `0 = z - x` with Gauss or Radau nodes on increasing grids of any step length: calls with a root finder that finds every root
succeed. -/
theorem loop_call' (freshI : String → ℕ) (hI : 7 ≤ freshI "xdot") (tau : List ℝ) (hnode : IsGauss tau ∨ IsRadau tau) (hpos : 0 < tau.length)
    (t : List ℝ) (two : 2 ≤ t.length) (ht : ∀ n < t.length - 1, nd t n < nd t (n + 1)) (x0 z0 u p : Mat ℝ) :
    ∃ g out, Integrator.new exFresh freshI (fun _ _ => .ok tau) idealCsFunction loopO t tau.length "legendre" none = .ok g ∧
      g.call idealRoot x0 z0 u p = .ok out := by
  obtain ⟨F, pre⟩ := loop_pre freshI hI t tau two hpos
  obtain ⟨g, hg, hroot⟩ := C98_unique_root exFresh freshI _ _ _ _ _ _ _ _ _ _ _ _ idealCsFunction_spec pre (by constructor <;> decide)
    (.inl rfl) (loop_locLipschitz freshI).1 hnode _ (loop_form freshI) (loop_locLipschitz freshI).2 ht
  obtain ⟨w, hw, -⟩ := hroot x0 z0 u p
  obtain ⟨sol, hsol⟩ := idealRoot_ok (f := fun w => g.residual w x0 u p) (w0 := g.w0 x0 z0) ⟨w, hw⟩
  have hcall : ∃ out, g.call idealRoot x0 z0 u p = .ok out := by
    unfold Integrator.call
    rw [hsol]
    exact ⟨_, rfl⟩
  obtain ⟨out, hout⟩ := hcall
  exact ⟨g, out, hg, hout⟩

/-- Steps of length 10 and 1000: integrating in one call or in two gives the same states; all the calls succeed. -/
example (freshI : String → ℕ) (hI : 7 ≤ freshI "xdot") (tau : List ℝ) (hnode : IsGauss tau ∨ IsRadau tau) (hpos : 0 < tau.length) (a : ℝ)
    (z u p : Mat ℝ) : ∃ g g₁ g₂ out out₁ out₂,
    Integrator.new exFresh freshI (fun _ _ => .ok tau) idealCsFunction loopO [0, 10, 1010] tau.length "legendre" none = .ok g ∧
    Integrator.new exFresh freshI (fun _ _ => .ok tau) idealCsFunction loopO [0, 10] tau.length "legendre" none = .ok g₁ ∧
    Integrator.new exFresh freshI (fun _ _ => .ok tau) idealCsFunction loopO [10, 1010] tau.length "legendre" none = .ok g₂ ∧
    g.call idealRoot ⟨1, 1, fun _ _ => a⟩ z u p = .ok out ∧ g₁.call idealRoot ⟨1, 1, fun _ _ => a⟩ z u p = .ok out₁ ∧
    g₂.call idealRoot ⟨1, 1, fun _ _ => out₁.xf.e 0 0⟩ z u p = .ok out₂ ∧
    out₂.x.e 0 1 = out.x.e 0 2 ∧ out₂.Z.e 0 0 = out.Z.e 0 tau.length ∧ out.qf.e 0 0 = out₁.qf.e 0 0 + out₂.qf.e 0 0 := by
  have ht : ∀ n < ([0, 10, 1010] : List ℝ).length - 1, nd ([0, 10, 1010] : List ℝ) n < nd ([0, 10, 1010] : List ℝ) (n + 1) := by
    intro n hn
    have hn : n < 2 := hn
    interval_cases n <;> norm_num [nd]
  obtain ⟨F, pre⟩ := loop_pre freshI hI [0, 10, 1010] tau (by simp) hpos
  obtain ⟨g, g₁, g₂, hg, hg₁, hg₂, hflow⟩ := C138_contractive_flow exFresh freshI _ _ _ _ _ _ _ _ _ _ _ _ idealCsFunction_spec pre
    (by constructor <;> decide) (.inl rfl) (loop_locLipschitz freshI).1 hnode _ (loop_form freshI) (loop_locLipschitz freshI).2 ht 1
    Nat.one_pos (by simp)
  obtain ⟨_, out, h1, ho⟩ := loop_call' freshI hI tau hnode hpos [0, 10, 1010] (by simp) ht ⟨1, 1, fun _ _ => a⟩ z u p
  obtain ⟨_, out₁, h2, ho₁⟩ := loop_call' freshI hI tau hnode hpos [0, 10] (by simp) (by
    intro n hn; obtain rfl : n = 0 := (by simpa using hn); norm_num [nd]) ⟨1, 1, fun _ _ => a⟩ z u p
  obtain ⟨_, out₂, h3, ho₂⟩ := loop_call' freshI hI tau hnode hpos [10, 1010] (by simp) (by
    intro n hn; obtain rfl : n = 0 := (by simpa using hn); norm_num [nd]) ⟨1, 1, fun _ _ => out₁.xf.e 0 0⟩ z u p
  have e1 : Except.ok _ = Except.ok _ := hg.symm.trans h1
  have e2 : Except.ok _ = Except.ok _ := hg₁.symm.trans h2
  have e3 : Except.ok _ = Except.ok _ := hg₂.symm.trans h3
  cases e1
  cases e2
  cases e3
  obtain ⟨-, f2, f3⟩ := hflow _ _ _ idealRoot_spec idealRoot_spec idealRoot_spec _ _ _ _ _ _ _ _ _ _ _ _ _ _ _ ho ho₁ ho₂
    (fun i _ => rfl) (fun n _ k hk => rfl) (fun i _ => rfl)
    (fun i hi => by obtain rfl : i = 0 := Nat.lt_one_iff.mp hi; rfl) (fun n _ k hk => absurd hk (Nat.not_lt_zero _)) (fun i _ => rfl)
  have f4 := f2.Z 0 (by simpa using hpos) 0 Nat.one_pos
  simp only [one_mul, add_zero] at f4
  exact ⟨g, g₁, g₂, out, out₁, out₂, hg, hg₁, hg₂, ho, ho₁, ho₂, f2.x 1 (by simp) 0 Nat.one_pos, f4, f3 0 Nat.one_pos⟩

/-- Two root finders and two guesses of the algebraic state, one result, on grids of any step length. -/
example (freshI : String → ℕ) (hI : 7 ≤ freshI "xdot") (tau : List ℝ) (hnode : IsGauss tau ∨ IsRadau tau) (hpos : 0 < tau.length)
    (rf : (List ℝ → List ℝ) → List ℝ → Except PyErr (List ℝ)) (hrf : IsRootfinder rf) (t : List ℝ) (two : 2 ≤ t.length)
    (ht : ∀ n < t.length - 1, nd t n < nd t (n + 1)) (x0 z0 z0' u p : Mat ℝ) : ∃ g,
    Integrator.new exFresh freshI (fun _ _ => .ok tau) idealCsFunction loopO t tau.length "legendre" none = .ok g ∧
    ∃ out, g.call idealRoot x0 z0 u p = .ok out ∧ ∀ out', g.call rf x0 z0' u p = .ok out' → out'.x.e 0 1 = out.x.e 0 1 := by
  obtain ⟨F, pre⟩ := loop_pre freshI hI t tau two hpos
  obtain ⟨g, hg, key⟩ := C138_contractive_determined exFresh freshI _ _ _ _ _ _ _ _ _ _ _ _ idealCsFunction_spec pre
    (by constructor <;> decide) (.inl rfl) (loop_locLipschitz freshI).1 hnode _ (loop_form freshI) (loop_locLipschitz freshI).2 ht
  obtain ⟨_, out, h1, ho⟩ := loop_call' freshI hI tau hnode hpos t two ht x0 z0 u p
  have e1 : Except.ok _ = Except.ok _ := hg.symm.trans h1
  cases e1
  exact ⟨g, hg, out, ho, fun out' ho' => (key _ _ idealRoot_spec hrf _ _ _ _ _ _ _ _ _ _ ho ho' (fun _ _ => rfl) (fun _ _ _ _ => rfl)
    (fun _ _ => rfl)).1.x 1 (by omega) 0 Nat.one_pos⟩

end CE
