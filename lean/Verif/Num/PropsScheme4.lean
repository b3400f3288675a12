import Verif.Num.PropsScheme3

/-!
# Property C31, continued: the trajectory returned by `integrate`, and a successful call
-/

open Polynomial

namespace CE

section
variable {K : Type} [Field K] [LinearOrder K] [IsStrictOrderedRing K] (fresh freshI : String → ℕ)
    (casadiPoints : ℕ → String → Except PyErr (List K))
    (csFunction : List (MXExpr K) → List (MXExpr K) → Except PyErr (CsFn K))
    (dae : DaeObj K) (t : List K) (order : ℕ) (method : String) (tdp_fun : Option (K → Mat K))
    (d : DaeObj K) (xdot res : MXExpr K) (tau : List K) (F : CsFn K)

/-- **C31** (partial like `C31_integrator_outputs_partial`) `integrate` returns the outputs of the call and a trajectory on
the grid `t` that takes the values `x` at the grid points (from both sides) and, at every collocation point inside its
interval, the values `X` with derivatives `K`. -/
theorem C31_integrate_partial (hcs : IsCsFunction csFunction)
    (pre : SchemePre freshI casadiPoints csFunction dae t order method tdp_fun d xdot res tau F)
    (hd : tau.Nodup) (h0 : 0 ∉ tau) (hasc : Ascending t) (hfr : DistinctSyms fresh)
    (hpq : dae.np = 0 ∨ dae.nq = 0)
    (rootfinder : (List K → List K) → List K → Except PyErr (List K)) (hrf : IsRootfinder rootfinder) :
    ∃ g, Integrator.new fresh freshI casadiPoints csFunction dae t order method tdp_fun = .ok g ∧
      ∀ x0 z0 u p out, g.call rootfinder x0 z0 u p = .ok out →
        ∃ tr dtr, g.integrate fresh rootfinder x0 z0 u p = .ok (out, tr) ∧ tr.derivative = .ok dtr ∧ tr.intervals = t ∧
          (∀ n < t.length - 1, ∃ V, tr.call [nd t n] = .ok V ∧ ∀ i < dae.nx, V.e i 0 = out.x.e i n) ∧
          (∀ n < t.length - 1, ∃ V, tr.call [nd t (n + 1)] "left" = .ok V ∧
            ∀ i < dae.nx, V.e i 0 = out.x.e i (n + 1)) ∧
          ∀ n < t.length - 1, ∀ j < order, InRight t n (pointTime t tau n j) → ∃ V DV,
            tr.call [pointTime t tau n j] = .ok V ∧ dtr.call [pointTime t tau n j] = .ok DV ∧
            ∀ i < dae.nx, V.e i 0 = out.X.e i (n * order + j) ∧ DV.e i 0 = out.Kd.e i (n * order + j) := by
  obtain ⟨s, x1, hs, -, hx1v, hnew⟩ := integrator_new fresh freshI casadiPoints csFunction dae t order method tdp_fun d xdot res tau F
    pre
  rw [if_neg (by omega)] at hnew
  have b := pre.built hs
  have hnx : dae.nx = d.nx := by simp [DaeObj.nx, (makeImplicit_parts pre.impl).1]
  have htwo := pre.two
  obtain ⟨⟨hN, hM, hst, -⟩, ⟨htl, htc⟩, -, -⟩ := C26_points_and_inputs fresh freshI casadiPoints csFunction dae t order method tdp_fun
    d xdot res tau F false s pre hs
  rw [hN, hM] at htc
  refine ⟨_, hnew, ?_⟩
  intro x0 z0 u p out hcall
  have hcall0 := hcall
  unfold Integrator.call at hcall
  simp only [bind, Except.bind] at hcall
  split at hcall
  · cases hcall
  rename_i sol hsol
  have hroot := (hrf _ _ _ hsol).2
  have hout := Except.ok.inj hcall
  set env := Integrator.envOf fresh s sol u p with henv
  have heq : ∀ v ∈ s.eq.vals env, v = 0 := fun v hv => hroot v (List.mem_append_left _ hv)
  have hne : ∀ n < s.N, nd t n ≠ nd t (n + 1) := fun n hn => (hasc n (by rw [hN] at hn; omega)).ne
  obtain ⟨-, hb, -⟩ := (C25_equations fresh freshI casadiPoints csFunction dae t order method tdp_fun d xdot res tau F false s hcs
    pre hs hd hne env).1.mp heq
  have hox : out.x = s.x.at' env := by rw [← hout]
  have hoK : out.Kd = s.Kd.at' env := by rw [← hout]
  have hoX : out.X = s.X.at' env := by rw [← hout]
  have hsx : s.x.rows = d.nx ∧ s.x.cols = s.N + 1 := by rw [b.x, b.N_eq]; exact ⟨pre.wf.nx.symm, rfl⟩
  have hsK : s.Kd.rows = d.nx ∧ s.Kd.cols = s.N * s.M := by rw [b.Kd, b.N_eq, b.M_eq]; exact ⟨pre.wf.nx.symm, rfl⟩
  have hcont : ∀ n < s.N, ∀ i < d.nx, s.eqContinuity.val env i n = 0 := by
    intro n hn i hi
    have h24 := C24_state_integration fresh freshI casadiPoints csFunction dae t order method tdp_fun d xdot
      res tau F false s pre hs hd env i n hn
    obtain ⟨P, hP, -⟩ := h24.1 (hne n hn)
    rw [(h24.2 P hP).2, hb n hn i hi P hP, sub_self]
  obtain ⟨pp, dpp, hpp, hdpp, hint, -, -, hC, hE, hD, -⟩ := C30_piecewisePolyX fresh freshI casadiPoints csFunction dae t order method
    tdp_fun d xdot res tau F false s pre hs hd h0 hasc hfr.xK out.x out.Kd (by rw [hox]; exact hsx) (by rw [hoK]; exact hsK)
    env (by intro i n; rw [hox]; rfl) (by intro i n; rw [hoK]; rfl)
  refine ⟨pp, dpp, ?_, hdpp, hint, ?_, ?_, ?_⟩
  · unfold Integrator.integrate
    rw [hcall0]
    simp only [bind, Except.bind, hpp]
    rfl
  · intro n hn
    obtain ⟨V, hV, h⟩ := hC n (by rw [hN]; exact hn)
    exact ⟨V, hV, by rw [hnx]; exact h⟩
  · intro n hn
    obtain ⟨V, hV, h⟩ := hD n (by rw [hN]; exact hn)
    refine ⟨V, hV, ?_⟩
    intro i hi
    rw [hnx] at hi
    rw [h i hi, hcont n (by rw [hN]; exact hn) i hi, zero_add]
  · intro n hn j hj hin
    have := hE n (by rw [hN]; exact hn) j (by rw [hM]; exact hj)
    rw [hM, htc n hn j hj] at this
    obtain ⟨V, DV, hV, hDV, h⟩ := this hin
    refine ⟨V, DV, hV, hDV, ?_⟩
    rw [hnx, hoX]
    exact h

end

/-! ## An instance with a successful call -/

/-- The time-dependent parameter of the example: `tdp(t) = t`. -/
def scalarTdp (s : ℚ) : Mat ℚ := ⟨1, 1, fun _ _ => s⟩

/-- `x' = z + u + tdp`, `z = 2 t`, quadrature `t`, no parameters. -/
def exO2 : DaeObj ℚ :=
  ⟨.sym 0 1, .sym 1 1, .sym 2 1, .sym 3 0, .sym 4 1, ⟨1, 1, false, fun env _ _ => env 4 0 0⟩, .sym 5 1,
    .semi ⟨1, 1, false, fun env _ _ => env 1 0 0 + env 2 0 0 + env 5 0 0⟩
      ⟨1, 1, false, fun env _ _ => env 1 0 0 - 2 * env 4 0 0⟩⟩

/-- Its residual. -/
def exRes2 (freshI : String → ℕ) : MXExpr ℚ :=
  ⟨2, 1, false, fun env i j => if i < 1 then env (freshI "xdot") i j - (env 1 0 0 + env 2 0 0 + env 5 0 0)
    else env 1 0 0 - 2 * env 4 0 0⟩

/-- Its implicit form. -/
def exD2 (freshI : String → ℕ) : DaeObj ℚ :=
  ⟨.sym 0 1, .sym 1 1, .sym 2 1, .sym 3 0, .sym 4 1, ⟨1, 1, false, fun env _ _ => env 4 0 0⟩, .sym 5 1,
    .implicit (.sym (freshI "xdot") 1) (exRes2 freshI)⟩

theorem integrator_instance (freshI : String → ℕ) (hI : 6 ≤ freshI "xdot") :
    ∃ F : CsFn ℚ,
      SchemePre freshI (fun _ _ => .ok [1 / 3, 1]) idealCsFunction exO2 [0, 1, 3] 2 "radau" (some scalarTdp) (exD2 freshI)
        (.sym (freshI "xdot") 1) (exRes2 freshI) [1 / 3, 1] F := by
  have hm : exO2.makeImplicit freshI = .ok (exD2 freshI) := rfl
  have wf : ImplicitWF (exD2 freshI) (.sym (freshI "xdot") 1) (exRes2 freshI) :=
    ⟨rfl, rfl, rfl, rfl, ⟨rfl, rfl⟩, rfl, rfl, rfl, rfl⟩
  have hfun := isFunctionOf_syms (K := ℚ) [(freshI "xdot", 1, 1), (0, 1, 1), (1, 1, 1), (2, 1, 1), (3, 0, 1), (4, 1, 1), (5, 1, 1)]
    (by simp; omega) [exRes2 freshI,
        ⟨1, 1, false, fun env _ _ => env 4 0 0⟩] (by
      intro o ho env1 env2 h
      simp only [List.mem_cons, List.not_mem_nil, or_false, forall_eq_or_imp, forall_eq, Nat.lt_one_iff] at h ho
      obtain ⟨h6, h0, h1, h2, h3, h4, h5⟩ := h
      rcases ho with rfl | rfl
      · refine ⟨rfl, rfl, ?_⟩
        intro i hi j hj
        have hj : j = 0 := by change j < 1 at hj; omega
        subst hj
        simp only [exRes2, MXExpr.at', h1, h2, h4, h5]
        by_cases hi0 : i < 1
        · have : i = 0 := by omega
          subst this
          rw [h6]
        · rw [if_neg hi0, if_neg hi0]
      · exact ⟨rfl, rfl, fun i _ j _ => h4⟩)
  have hF : ∃ F, idealCsFunction [MXExpr.sym (freshI "xdot") 1, .sym 0 1, .sym 1 1, .sym 2 1, .sym 3 0, .sym 4 1, .sym 5 1]
      [exRes2 freshI, (⟨1, 1, false, fun env _ _ => env 4 0 0⟩ : MXExpr ℚ)] = .ok F := by
    unfold idealCsFunction
    rw [dif_pos ⟨_, hfun⟩]
    exact ⟨_, rfl⟩
  obtain ⟨F, hF⟩ := hF
  exact ⟨F, hm, wf, rfl, rfl, by simp, by simp, rfl, rfl, fun s => ⟨rfl, rfl⟩, hF⟩

/-- A root finder that tries one candidate. -/
def tryRoot (w : List ℚ) (f : List ℚ → List ℚ) (w0 : List ℚ) : Except PyErr (List ℚ) :=
  if w.length = w0.length ∧ ∀ v ∈ f w, v = 0 then .ok w else .error .runtime

theorem tryRoot_spec (w : List ℚ) : IsRootfinder (tryRoot w) := by
  intro f w0 sol h
  unfold tryRoot at h
  split_ifs at h with hc
  cases h
  exact hc

/-- The solution `z = 2 t`, `u = 0, 2`, `x = 3/2 t^2`, then `3/2 t^2 + 2 (t - 1)`. -/
def exW : List ℚ := [0, 3 / 2, 35 / 2, 1, 3, 7, 11, 2 / 3, 2, 10 / 3, 6]

/-- Non-vacuity of C31: with these inputs the call succeeds. -/
theorem integrator_call_instance (freshI : String → ℕ) (hI : 6 ≤ freshI "xdot") (g : Integrator ℚ)
    (hg : Integrator.new exFresh freshI (fun _ _ => .ok [1 / 3, 1]) idealCsFunction exO2 [0, 1, 3] 2 "radau" (some scalarTdp)
      = .ok g) :
    ∃ out, g.call (tryRoot exW) ⟨1, 1, fun _ _ => 0⟩ ⟨1, 1, fun _ _ => 0⟩ ⟨1, 2, fun _ j => nd [0, 2] j⟩ ⟨0, 1, fun _ _ => 0⟩
      = .ok out ∧ out.x.e 0 2 = 35 / 2 := by
  obtain ⟨F, pre⟩ := integrator_instance freshI hI
  obtain ⟨s, x1, hs, -, hx1v, hnew⟩ := integrator_new exFresh freshI _ _ _ _ _ _ _ _ _ _ _ _ pre
  rw [if_neg (fun h => h.1 rfl), hg] at hnew
  have hg' := Except.ok.inj hnew
  have hb := pre.built hs
  have hN : s.N = 2 := hb.N_eq
  have hM : s.M = 2 := hb.M_eq
  have hd : ([1 / 3, 1] : List ℚ).Nodup := by norm_num
  have ht : ∀ n < s.N, nd ([0, 1, 3] : List ℚ) n ≠ nd ([0, 1, 3] : List ℚ) (n + 1) := by
    rw [hN]; intro n hn
    interval_cases n <;> simp
  have hx : s.x = .sym 0 1 3 := hb.x
  have hK : s.Kd = .sym 1 1 4 := hb.Kd
  have hZ : s.Z = .sym 2 1 4 := hb.Z
  have hu : s.u = .sym 3 1 2 := hb.u
  have hp : s.p = .sym 4 0 1 := hb.p
  set env := Integrator.envOf exFresh s exW ⟨1, 2, fun _ j => nd [0, 2] j⟩ ⟨0, 1, fun _ _ => 0⟩ with henv
  have ex : ∀ n, s.x.val env 0 n = nd exW n := by
    intro n
    rw [hx]
    show env 0 0 n = _
    rw [henv]
    unfold Integrator.envOf
    rw [if_pos (show (0 : ℕ) = exFresh "x" from rfl), hx]
    simp [Mat.ofVec, MXExpr.sym]
  have eK : ∀ n, s.Kd.val env 0 n = nd exW (3 + n) := by
    intro n
    rw [hK]
    show env 1 0 n = _
    rw [henv]
    unfold Integrator.envOf
    rw [if_neg (show ¬ (1 : ℕ) = exFresh "x" by decide), if_pos (show (1 : ℕ) = exFresh "K" by decide), hx, hK]
    simp [Mat.ofVec, MXExpr.sym, MXExpr.numel]
  have eZ : ∀ n, s.Z.val env 0 n = nd exW (7 + n) := by
    intro n
    rw [hZ]
    show env 2 0 n = _
    rw [henv]
    unfold Integrator.envOf
    rw [if_neg (show ¬ (2 : ℕ) = exFresh "x" by decide), if_neg (show ¬ (2 : ℕ) = exFresh "K" by decide),
      if_pos (show (2 : ℕ) = exFresh "Z" by decide), hx, hK, hZ]
    simp [Mat.ofVec, MXExpr.sym, MXExpr.numel]
  have eu : ∀ n, s.u.val env 0 n = nd [0, 2] n := by
    intro n
    rw [hu]
    show env 3 0 n = _
    rw [henv]
    unfold Integrator.envOf
    rw [if_neg (show ¬ (3 : ℕ) = exFresh "x" by decide), if_neg (show ¬ (3 : ℕ) = exFresh "K" by decide),
      if_neg (show ¬ (3 : ℕ) = exFresh "Z" by decide), if_pos (show (3 : ℕ) = exFresh "u" by decide)]
  have hsol : IsPolySolution (exD2 freshI) (.sym (freshI "xdot") 1) (exRes2 freshI) (some scalarTdp) [0, 1, 3] [1 / 3, 1]
      exXp (fun _ T _ => 2 * T) (fun n _ => nd [0, 2] n) (fun _ => 1) := by
    refine ⟨?_, ?_, ?_⟩
    · intro n _ i _
      unfold exXp
      split_ifs <;> (compute_degree; exact le_refl (2 : WithBot ℕ))
    · intro n hn i _
      have : n = 0 := by simp at hn; omega
      subst this
      norm_num [exXp]
    · intro n hn j hj env' T hT h1 h2 h3 h4 h5 h6 h7
      have e1 := h1 0 Nat.one_pos
      have e3 := h3 0 Nat.one_pos
      have e4 := h4 0 Nat.one_pos
      have e7 := h7 _ rfl 0 Nat.one_pos 0 Nat.one_pos
      simp only [exD2, MXExpr.sym] at e1 e3 e4 h6 e7
      intro i hi k hk
      have hk : k = 0 := by change k < 1 at hk; omega
      subst hk
      simp only [exRes2]
      have hn : n = 0 ∨ n = 1 := by simp at hn; omega
      by_cases hi0 : i < 1
      · have : i = 0 := by omega
        subst this
        rw [if_pos hi0, e1, e3, e4, e7]
        rcases hn with rfl | rfl
        · simp [exXp, scalarTdp]; ring
        · simp [exXp, scalarTdp]; ring
      · rw [if_neg hi0, e3, h6]; ring
  have hsam : Samples s (exD2 freshI) [0, 1, 3] [1 / 3, 1] env exXp (fun _ T _ => 2 * T) (fun n _ => nd [0, 2] n)
      (fun _ => 1) := by
    have hone : ∀ i, i < (exD2 freshI).nx → i = 0 := fun i hi => by change i < 1 at hi; omega
    have hone' : ∀ i, i < (exD2 freshI).nz → i = 0 := fun i hi => by change i < 1 at hi; omega
    have hone'' : ∀ i, i < (exD2 freshI).nu → i = 0 := fun i hi => by change i < 1 at hi; omega
    refine ⟨?_, ?_, ?_, ?_, ?_, ?_⟩
    · intro n hn i hi
      rw [hone i hi, ex]
      have hn : n = 0 ∨ n = 1 := by simp at hn; omega
      rcases hn with rfl | rfl <;> norm_num [exW, exXp]
    · intro i hi
      rw [hone i hi, ex]; norm_num [exW, exXp]
    · intro n hn j hj i hi
      rw [hone i hi, eK]
      have hn : n = 0 ∨ n = 1 := by simp at hn; omega
      have hj : j = 0 ∨ j = 1 := by simp at hj; omega
      rcases hn with rfl | rfl <;> rcases hj with rfl | rfl <;> norm_num [exW, exXp, pointTime]
    · intro n hn j hj i hi
      rw [hone' i hi, eZ]
      have hn : n = 0 ∨ n = 1 := by simp at hn; omega
      have hj : j = 0 ∨ j = 1 := by simp at hj; omega
      rcases hn with rfl | rfl <;> rcases hj with rfl | rfl <;> norm_num [exW, pointTime]
    · intro n hn i hi
      rw [hone'' i hi, eu]
    · intro c _ i hi
      exact absurd hi (Nat.not_lt_zero i)
  obtain ⟨h1, -, -⟩ := C29_polynomial_solutions_exact exFresh freshI _ _ _ _ _ _ _ _ _ _ _ _ false s idealCsFunction_spec pre hs hd ht
    _ _ _ _ env hsol hsam
  have hok : tryRoot exW (fun w => g.residual w ⟨1, 1, fun _ _ => 0⟩ ⟨1, 2, fun _ j => nd [0, 2] j⟩ ⟨0, 1, fun _ _ => 0⟩)
      (g.w0 ⟨1, 1, fun _ _ => 0⟩ ⟨1, 1, fun _ _ => 0⟩) = .ok exW := by
    unfold tryRoot
    rw [if_pos]
    rw [hg']
    refine ⟨?_, ?_⟩
    · simp only [hx, hK, hZ]; rfl
    · intro v hv
      rcases List.mem_append.mp hv with hv | hv
      · exact h1 v hv
      · obtain ⟨i, hi, rfl⟩ := List.mem_map.mp hv
        have hi : i = 0 := by
          have := List.mem_range.mp hi
          change i < 1 at this
          omega
        subst hi
        rw [hx1v, ex]
        simp [exW]
  unfold Integrator.call
  rw [hok]
  refine ⟨_, rfl, ?_⟩
  rw [hg']
  exact ex 2

/-- The outputs of C31 for the instance: the exact quadrature, and the trajectory passes through the states. -/
example (freshI : String → ℕ) (hI : 6 ≤ freshI "xdot") : ∃ g out tr V,
    Integrator.new exFresh freshI (fun _ _ => .ok [1 / 3, 1]) idealCsFunction exO2 [0, 1, 3] 2 "radau" (some scalarTdp) = .ok g ∧
    g.integrate exFresh (tryRoot exW) ⟨1, 1, fun _ _ => 0⟩ ⟨1, 1, fun _ _ => 0⟩ ⟨1, 2, fun _ j => nd [0, 2] j⟩
      ⟨0, 1, fun _ _ => 0⟩ = .ok (out, tr) ∧ out.qf.e 0 0 = 9 / 2 ∧ tr.call [3] "left" = .ok V ∧ V.e 0 0 = 35 / 2 := by
  obtain ⟨F, pre⟩ := integrator_instance freshI hI
  have hd : ([1 / 3, 1] : List ℚ).Nodup := by norm_num
  have hasc : Ascending ([0, 1, 3] : List ℚ) := by
    intro n hn
    have hn : n = 0 ∨ n = 1 := by simp at hn; omega
    rcases hn with rfl | rfl <;> norm_num
  have hfr : DistinctSyms exFresh := ⟨by decide, by decide, by decide, by decide, by decide, by decide, by decide, by decide,
    by decide, by decide⟩
  obtain ⟨g, hg, hout⟩ := C31_integrate_partial exFresh freshI _ _ _ _ _ _ _ _ _ _ _ _ idealCsFunction_spec pre hd (by norm_num) hasc
    hfr (Or.inl rfl) _ (tryRoot_spec exW)
  obtain ⟨g', hg', -, -, hout'⟩ := C31_integrator_outputs_partial exFresh freshI _ _ _ _ _ _ _ _ _ _ _ _ idealCsFunction_spec pre hd
    (fun n hn => (hasc n hn).ne) hfr (Or.inl rfl) _ (tryRoot_spec exW)
  obtain rfl : g' = g := Except.ok.inj (hg'.symm.trans hg)
  obtain ⟨out, hcall, hx⟩ := integrator_call_instance freshI hI g' hg
  obtain ⟨tr, dtr, hi, -, -, -, hl, -⟩ := hout _ _ _ _ _ hcall
  obtain ⟨V, hV, hv⟩ := hl 1 (by simp)
  obtain ⟨-, -, -, -, ⟨-, htc⟩, -, -, -, -, hq⟩ := hout' _ _ _ _ _ hcall
  refine ⟨g', out, tr, V, hg, hi, ?_, hV, ?_⟩
  · rw [(hq (fun _ _ => X) (fun _ _ => C (1 / 2) * X ^ 2) (by intro _ _; rw [degree_X]; norm_num) (by
      intro _ _; rw [derivative_C_mul, derivative_X_pow, ← mul_assoc, ← C_mul]; norm_num) (by
      intro n hn j hj env' hat i hi
      have := hat.t
      rw [htc n hn j hj] at this
      rw [eval_X]
      exact this) 0 Nat.one_pos).1]
    norm_num [Finset.sum_range_succ]
  · rw [hv 0 Nat.one_pos, hx]

end CE
