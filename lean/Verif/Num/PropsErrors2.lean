import Verif.Num.PropsErrors
import Verif.Num.PropsScheme5

/-! # The exception classes of the collocation scheme (C86) -/

namespace CE

variable {K : Type} [Field K]

/-- Nothing but RuntimeError is raised. -/
def OnlyRuntime {α : Type} (x : Except PyErr α) : Prop := ∀ e, x = .error e → e = .runtime

theorem OnlyRuntime.bind {α β : Type} {x : Except PyErr α} {f : α → Except PyErr β} (hx : OnlyRuntime x)
    (hf : ∀ a, OnlyRuntime (f a)) : OnlyRuntime (x >>= f) := by
  intro e h
  cases x with
  | error e' => cases h; exact hx e rfl
  | ok a => exact hf a e h

theorem OnlyRuntime.ok {α : Type} (a : α) : OnlyRuntime (.ok a) := fun _ h => by cases h

theorem OnlyRuntime.pure {α : Type} (a : α) : OnlyRuntime (Pure.pure a : Except PyErr α) := fun _ h => by cases h

theorem OnlyRuntime.mapM {α β : Type} {f : α → Except PyErr β} {l : List α} (hf : ∀ a, OnlyRuntime (f a)) :
    OnlyRuntime (l.mapM f) := by
  intro e h
  obtain ⟨a, -, ha⟩ := mapM_error_of h
  exact hf a e ha

theorem onlyRuntime_colSlice (a : MXExpr K) (s n : ℕ) : OnlyRuntime (a.colSlice s n) := by
  intro e h
  unfold MXExpr.colSlice at h
  split_ifs at h
  cases h
  rfl

theorem onlyRuntime_mtimes (a b : MXExpr K) : OnlyRuntime (a.mtimes b) := by
  intro e h
  unfold MXExpr.mtimes at h
  split_ifs at h
  cases h
  rfl

theorem onlyRuntime_add (a b : MXExpr K) : OnlyRuntime (a.add b) := by
  intro e h
  unfold MXExpr.add at h
  split_ifs at h
  cases h
  rfl

theorem onlyRuntime_sub (a b : MXExpr K) : OnlyRuntime (a.sub b) := by
  intro e h
  unfold MXExpr.sub at h
  split_ifs at h
  cases h
  rfl

theorem onlyRuntime_horzcat (l : List (MXExpr K)) : OnlyRuntime (MXExpr.horzcat l) := by
  intro e h
  unfold MXExpr.horzcat at h
  split at h
  · cases h
  · split_ifs at h
    cases h
    rfl

theorem onlyRuntime_inputsU (u : MXExpr K) (N M : ℕ) : OnlyRuntime (Scheme.inputsU u N M) :=
  .bind (.mapM fun _ => .bind (onlyRuntime_colSlice _ _ _) fun _ => .pure _) fun _ => onlyRuntime_horzcat _

theorem onlyRuntime_integrateState (x Ks : MXExpr K) (N M : ℕ) (h : List K) (B : ButcherTableau K) :
    OnlyRuntime (Scheme.integrateState x Ks N M h B) :=
  .bind (onlyRuntime_colSlice _ _ _) fun _ => .bind (onlyRuntime_mtimes _ _) fun _ => .bind (onlyRuntime_mtimes _ _) fun _ =>
    .bind (onlyRuntime_add _ _) fun _ => .bind (onlyRuntime_mtimes _ _) fun _ => .bind (onlyRuntime_add _ _) fun _ => .pure _

theorem onlyRuntime_qAt (nq : ℕ) (quad : MXExpr K) (h : List K) (M : ℕ) (b : Mat K) (n : ℕ) :
    OnlyRuntime (Scheme.qAt nq quad h M b n) := by
  induction n with
  | zero => exact .ok _
  | succ n ih =>
    exact .bind ih fun _ => .bind (onlyRuntime_colSlice _ _ _) fun _ => .bind (onlyRuntime_mtimes _ _) fun _ => onlyRuntime_add _ _

theorem onlyRuntime_integrateQuad (nq : ℕ) (quad : MXExpr K) (N M : ℕ) (h : List K) (B : ButcherTableau K) :
    OnlyRuntime (Scheme.integrateQuad nq quad N M h B) :=
  .bind (.mapM fun _ => onlyRuntime_qAt _ _ _ _ _ _) fun _ => .bind (onlyRuntime_horzcat _) fun _ =>
    .bind (onlyRuntime_colSlice _ _ _) fun _ => .bind (onlyRuntime_mtimes _ _) fun _ => .bind (onlyRuntime_mtimes _ _) fun _ =>
      .bind (onlyRuntime_add _ _) fun _ => .pure _

theorem bind_error {α β : Type} {x : Except PyErr α} {f : α → Except PyErr β} {e : PyErr} (h : (x >>= f) = .error e) :
    x = .error e ∨ ∃ a, x = .ok a ∧ f a = .error e := by
  cases x with
  | error e' => cases h; exact .inl rfl
  | ok a => exact .inr ⟨a, rfl, h⟩

/-- The mapped evaluation raises what `cs.Function` raises, or RuntimeError. -/
theorem evalDae_error {csFunction : List (MXExpr K) → List (MXExpr K) → Except PyErr (CsFn K)} {d : DaeObj K}
    {xdot res : MXExpr K} (hk : d.kind = .implicit xdot res) {n : ℕ} {rep : Bool} {args : List (MXExpr K)} {e : PyErr}
    (h : Scheme.evalDae csFunction d n rep args = .error e) : (∃ ins outs, csFunction ins outs = .error e) ∨ e = .runtime := by
  have hin : ["xdot", "x", "z", "u", "p", "t", "tdp"].mapM d.getattr = .ok [xdot, d.x, d.z, d.u, d.p, d.t, d.tdp] := by
    simp [List.mapM_cons, DaeObj.getattr, hk, bind, Except.bind, pure, Except.pure]
  have hout : ["dae", "quad"].mapM d.getattr = .ok [res, d.quad] := by
    simp [List.mapM_cons, DaeObj.getattr, hk, bind, Except.bind, pure, Except.pure]
  unfold Scheme.evalDae at h
  rcases bind_error h with h | ⟨F, -, h⟩
  · unfold DaeObj.createFunction at h
    rw [hin, hout] at h
    exact .inl ⟨_, _, h⟩
  rw [hin, hout] at h
  right
  rcases bind_error h with h | ⟨_, h1, h⟩
  · cases h
  rcases bind_error h with h | ⟨_, h2, h⟩
  · cases h
  cases h2
  rcases bind_error h with h | ⟨r, hr, h⟩
  · unfold mapCall at h
    split_ifs at h <;> cases h <;> rfl
  · unfold mapCall at hr
    split_ifs at hr
    cases hr
    cases h

/-- An implicit model. -/
theorem makeImplicit_kind {fresh : String → ℕ} {o d : DaeObj K} (h : o.makeImplicit fresh = .ok d) :
    ∃ xdot res, d.kind = .implicit xdot res := by
  unfold DaeObj.makeImplicit at h
  split at h
  · cases h
  · next a b hk => cases h; exact ⟨a, b, hk⟩
  · obtain ⟨_, -, h⟩ := bind_ok h
    obtain ⟨_, -, h⟩ := bind_ok h
    unfold DaeObj.newImplicit at h
    obtain ⟨o', -, h⟩ := bind_ok h
    simp only at h
    split_ifs at h
    cases h
    exact ⟨_, _, rfl⟩

variable [DecidableEq K] [CharZero K] {fresh freshI : String → ℕ} {casadiPoints : ℕ → String → Except PyErr (List K)}
    {csFunction : List (MXExpr K) → List (MXExpr K) → Except PyErr (CsFn K)}
    {dae : DaeObj K} {t : List K} {order : ℕ} {method : String} {tdp_fun : Option (K → Mat K)} {rep : Bool}

/-- **C86** (scheme): apart from exceptions of `cs.collocation_points` and `cs.Function`, the constructor of a collocation scheme
raises ValueError only for a single time point, AssertionError only if a function for the time-dependent parameter is missing,
and otherwise nothing but RuntimeError (from CasADi). -/
theorem C86_scheme (d : DaeObj K) (hd : dae.makeImplicit freshI = .ok d) (e : PyErr)
    (h : Scheme.new fresh freshI casadiPoints csFunction dae t order method tdp_fun rep = .error e) :
    casadiPoints order method = .error e ∨ (∃ ins outs, csFunction ins outs = .error e) ∨ (e = .value ∧ t.length = 1) ∨
      (e = .assertion ∧ tdp_fun = none ∧ d.ntdp ≠ 0) ∨ e = .runtime := by
  obtain ⟨xdot, res, hk⟩ := makeImplicit_kind hd
  unfold Scheme.new at h
  rw [hd] at h
  have h : (if t = [] then (.error .runtime : Except PyErr (Scheme K)) else _) = .error e := h
  by_cases h1 : t = []
  · rw [if_pos h1] at h
    cases h
    simp
  rw [if_neg h1] at h
  rcases bind_error h with h | ⟨U, -, h⟩
  · simp [onlyRuntime_inputsU _ _ _ _ h]
  rcases bind_error h with h | ⟨B, -, h⟩
  · unfold butcherTableuForCollocationMethod at h
    rcases bind_error h with h | ⟨tau, -, h⟩
    · exact .inl h
    · rw [butcher_ok] at h
      cases h
  rcases bind_error h with h | ⟨Xf, -, h⟩
  · simp [onlyRuntime_integrateState _ _ _ _ _ _ _ h]
  by_cases h2 : t.length - 1 = 0
  · rw [if_pos h2] at h
    cases h
    have := List.length_pos_of_ne_nil h1
    exact .inr (.inr (.inl ⟨rfl, by omega⟩))
  rw [if_neg h2] at h
  rcases bind_error h with h | ⟨tdp, -, h⟩
  · unfold Scheme.tdpValues at h
    cases htf : tdp_fun with
    | some f =>
      rw [htf] at h
      simp [onlyRuntime_horzcat _ _ h]
    | none =>
      rw [htf] at h
      simp only at h
      split_ifs at h with h3
      cases h
      exact .inr (.inr (.inr (.inl ⟨rfl, rfl, h3⟩)))
  rcases bind_error h with h | ⟨out, -, h⟩
  · rcases evalDae_error hk h with h | h
    · exact .inr (.inl h)
    · simp [h]
  rcases bind_error h with h | ⟨xr, -, h⟩
  · simp [onlyRuntime_colSlice _ _ _ _ h]
  rcases bind_error h with h | ⟨cont, -, h⟩
  · simp [onlyRuntime_sub _ _ _ h]
  rcases bind_error h with h | ⟨q, -, h⟩
  · simp [onlyRuntime_integrateQuad _ _ _ _ _ _ _ h]
  cases h

/-- **C86** (scheme, the cases): no time points raise RuntimeError, a single one ValueError. -/
theorem C86_scheme_times (d : DaeObj K) (hd : dae.makeImplicit freshI = .ok d) (tau : List K)
    (hpts : casadiPoints order method = .ok tau) (hlen : tau.length = order) (ht : t.length ≤ 1) :
    Scheme.new fresh freshI casadiPoints csFunction dae t order method tdp_fun rep =
      .error (if t = [] then .runtime else .value) := by
  unfold Scheme.new
  rw [hd]
  change (if t = [] then (.error .runtime : Except PyErr (Scheme K)) else _) = _
  by_cases h1 : t = []
  · rw [if_pos h1, if_pos h1]
  rw [if_neg h1, if_neg h1]
  have := List.length_pos_of_ne_nil h1
  have h0 : t.length - 1 = 0 := by omega
  have hB : butcherTableuForCollocationMethod casadiPoints order method = .ok (schemeTableau tau order) := by
    unfold butcherTableuForCollocationMethod
    rw [hpts]
    have := butcher_ok tau
    rw [hlen] at this
    exact this
  simp only [h0, hB]
  have hU : Scheme.inputsU (MXExpr.sym (fresh "u") d.nu 0 : MXExpr K) 0 order = .ok ⟨0, 0, false, fun _ _ _ => 0⟩ := rfl
  have hX : ∃ r, Scheme.integrateState (MXExpr.sym (fresh "x") d.nx (0 + 1)) (MXExpr.sym (fresh "K") d.nx (0 * order) : MXExpr K) 0
      order (npDiff t) (schemeTableau tau order) = .ok r := by
    have hn : npDiff t = [] := List.eq_nil_of_length_eq_zero (by rw [npDiff_length, h0])
    rw [hn]
    unfold Scheme.integrateState
    simp [MXExpr.colSlice, MXExpr.sym, MXExpr.mtimes, MXExpr.const, Mat.kron, Mat.eye, Mat.ones, Mat.diagcat, MXExpr.add, bind,
      Except.bind, pure, Except.pure]
  obtain ⟨r, hX⟩ := hX
  simp only [hU, bind, Except.bind]
  rw [hX]
  rfl

/-- **C86** (scheme, the cases): on at least two time points a model with a time-dependent parameter for which no function is
given raises AssertionError. -/
theorem C86_scheme_tdp (d : DaeObj K) (hd : dae.makeImplicit freshI = .ok d) (tau : List K)
    (hpts : casadiPoints order method = .ok tau) (hlen : tau.length = order) (horder : 0 < order) (ht : 2 ≤ t.length)
    (hp : d.ntdp ≠ 0) :
    Scheme.new fresh freshI casadiPoints csFunction dae t order method none rep = .error .assertion := by
  unfold Scheme.new
  rw [hd]
  change (if t = [] then (.error .runtime : Except PyErr (Scheme K)) else _) = _
  have h1 : t ≠ [] := by
    rintro rfl
    simp at ht
  rw [if_neg h1]
  have hB : butcherTableuForCollocationMethod casadiPoints order method = .ok (schemeTableau tau order) := by
    unfold butcherTableuForCollocationMethod
    rw [hpts]
    have := butcher_ok tau
    rw [hlen] at this
    exact this
  obtain ⟨U, hU, -⟩ := inputsU_ok (K := K) (fresh "u") d.nu (t.length - 1) order (by omega)
  obtain ⟨X, xf, hX, -⟩ := integrateState_ok (fresh "x") (fresh "K") d.nx order t (t.length - 1) (by omega) horder tau
  have h0 : t.length - 1 ≠ 0 := by omega
  simp only [hB, hU, bind, Except.bind]
  rw [hX]
  simp only [if_neg h0, Scheme.tdpValues, if_pos hp]

/-- **C86** (integrator): the constructor of the integrator raises what the constructor of the scheme raises, or RuntimeError. -/
theorem C86_integrator (e : PyErr)
    (h : Integrator.new fresh freshI casadiPoints csFunction dae t order method tdp_fun = .error e) :
    Scheme.new fresh freshI casadiPoints csFunction dae t order method tdp_fun = .error e ∨ e = .runtime := by
  unfold Integrator.new at h
  rcases bind_error h with h | ⟨s, -, h⟩
  · exact .inl h
  right
  rcases bind_error h with h | ⟨v, -, h⟩
  · cases h
  rcases bind_error h with h | ⟨x1, -, h⟩
  · exact onlyRuntime_colSlice _ _ _ _ h
  split_ifs at h <;> cases h <;> rfl

/-- The model of the example of C70, for which a parameter function is needed: no function, no times, one time. -/
example (fresh freshI : String → ℕ) :
    Scheme.new fresh freshI (fun _ _ => .ok [1 / 3, 1]) idealCsFunction exO [0, 1, 3] 2 "radau" none = .error .assertion ∧
    Scheme.new fresh freshI (fun _ _ => .ok [1 / 3, 1]) idealCsFunction exO [] 2 "radau" none = .error .runtime ∧
    Scheme.new fresh freshI (fun _ _ => .ok [1 / 3, 1]) idealCsFunction exO [5] 2 "radau" none = .error .value :=
  ⟨C86_scheme_tdp (exD freshI) rfl [1 / 3, 1] rfl rfl (by omega) (by simp)
      (by show (2 : ℕ) ≠ 0; omega),
    C86_scheme_times (exD freshI) rfl [1 / 3, 1] rfl rfl (by simp),
    C86_scheme_times (exD freshI) rfl [1 / 3, 1] rfl rfl (by simp)⟩

/-- The same model with a parameter function that gives two rows instead of one: RuntimeError. -/
example (fresh freshI : String → ℕ) :
    Scheme.new fresh freshI (fun _ _ => .ok [1 / 3, 1]) idealCsFunction exO [0, 1, 3] 2 "radau"
      (some fun x => ⟨2, 2, fun _ _ => x⟩) = .error .runtime := by
  cases h : Scheme.new fresh freshI (fun _ _ => .ok [1 / 3, 1]) idealCsFunction exO [0, 1, 3] 2 "radau"
      (some fun x => ⟨2, 2, fun _ _ => x⟩) with
  | ok s =>
    have := (C70_rejects (exD freshI) [1 / 3, 1] rfl rfl rfl h).2.2.2.2.2 _ 2 rfl (by omega) Nat.one_pos (by simp) fun _ => rfl
    exact absurd this (by simp [exD, MXExpr.sym])
  | error e =>
    rcases C86_scheme (exD freshI) rfl e h with h | ⟨ins, outs, h⟩ | ⟨-, h⟩ | ⟨-, h, -⟩ | rfl
    · cases h
    · unfold idealCsFunction at h
      split_ifs at h
      cases h
      rfl
    · simp at h
    · cases h
    · rfl

end CE
