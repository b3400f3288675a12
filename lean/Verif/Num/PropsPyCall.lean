import Verif.Num.PyCall

/-! # C121: calls that cannot succeed -/

namespace CE

variable {α : Type}

theorem mapM_except_ok {β γ : Type} (l : List β) (f : β → Except PyErr γ) :
    (∃ r, l.mapM f = .ok r) ↔ ∀ x ∈ l, ∃ y, f x = .ok y := by
  induction l with
  | nil => simp [pure, Except.pure]
  | cons a l ih =>
    rw [List.mapM_cons]
    constructor
    · rintro ⟨r, h⟩
      cases ha : f a with
      | error e => rw [ha] at h; cases h
      | ok b =>
        rw [ha] at h
        cases hl : l.mapM f with
        | error e => rw [hl] at h; cases h
        | ok bs =>
          intro x hx
          rcases List.mem_cons.1 hx with rfl | hx
          · exact ⟨b, ha⟩
          · exact ih.1 ⟨bs, hl⟩ x hx
    · intro h
      obtain ⟨b, hb⟩ := h a List.mem_cons_self
      obtain ⟨bs, hbs⟩ := ih.2 fun x hx => h x (List.mem_cons_of_mem _ hx)
      exact ⟨b :: bs, by rw [hb, hbs]; rfl⟩

theorem mapM_except_error {β γ : Type} (l : List β) (f : β → Except PyErr γ) (e : PyErr) (h : ∀ x ∈ l, ∀ e', f x = .error e' → e' = e)
    (e' : PyErr) (hl : l.mapM f = .error e') : e' = e := by
  induction l with
  | nil => cases hl
  | cons a l ih =>
    rw [List.mapM_cons] at hl
    cases ha : f a with
    | error e1 =>
      rw [ha] at hl
      injection hl with hl
      rw [← hl]
      exact h a List.mem_cons_self e1 ha
    | ok b =>
      rw [ha] at hl
      cases hm : l.mapM f with
      | error e1 =>
        rw [hm] at hl
        injection hl with hl
        exact ih (fun x hx => h x (List.mem_cons_of_mem _ hx)) (by rw [hm, hl])
      | ok bs => rw [hm] at hl; cases hl

theorem lookup_isSome (kw : List (String × α)) (k : String) : (∃ v, kw.lookup k = some v) ↔ k ∈ kw.map Prod.fst := by
  induction kw with
  | nil => simp
  | cons a l ih =>
    rw [List.lookup_cons, List.map_cons, List.mem_cons]
    by_cases h : k = a.1
    · simp [h]
    · rw [show (k == a.1) = false by simpa using h]
      simp only [ih, h, false_or]

/-- **C121**: when a call succeeds.  There are not more positional arguments than parameters, every keyword is the name of one of the
remaining parameters, and every remaining parameter without default gets a keyword. -/
theorem C121_bind (params : List Param) (pos : List α) (kw : List (String × α)) :
    (∃ r, bindArgs params pos kw = .ok r) ↔ pos.length ≤ params.length ∧
      (∀ k ∈ kw, ∃ p ∈ params.drop pos.length, p.name = k.1) ∧
      ∀ p ∈ params.drop pos.length, p.required = true → ∃ v, (p.name, v) ∈ kw := by
  unfold bindArgs
  by_cases h1 : pos.length > params.length
  · rw [if_pos h1]
    constructor
    · rintro ⟨r, h⟩; cases h
    · rintro ⟨h, _⟩; omega
  rw [if_neg h1]
  by_cases h2 : (kw.any fun k => k.1 ∉ (params.drop pos.length).map Param.name) = true
  · rw [if_pos h2]
    constructor
    · rintro ⟨r, h⟩; cases h
    · rintro ⟨_, h, _⟩
      obtain ⟨k, hk, hk'⟩ := List.any_eq_true.1 h2
      obtain ⟨p, hp, hpk⟩ := h k hk
      exact absurd (List.mem_map.2 ⟨p, hp, hpk⟩) (by simpa using hk')
  rw [if_neg h2, mapM_except_ok]
  have hkw : ∀ k ∈ kw, ∃ p ∈ params.drop pos.length, p.name = k.1 := by
    intro k hk
    by_contra hc
    exact h2 (List.any_eq_true.2 ⟨k, hk, decide_eq_true fun hm => by
      obtain ⟨p, hp, hpk⟩ := List.mem_map.1 hm
      exact hc ⟨p, hp, hpk⟩⟩)
  refine ⟨fun h => ⟨by omega, hkw, ?_⟩, fun h => ?_⟩
  · intro p hp hr
    obtain ⟨i, hi, hpi⟩ := List.mem_iff_getElem.1 hp
    rw [List.getElem_drop] at hpi
    rw [List.length_drop] at hi
    obtain ⟨y, hy⟩ := h (p, pos.length + i) (List.mem_zipIdx_iff_getElem?.2 (by
      simp only [List.getElem?_eq_getElem (show pos.length + i < params.length by omega), hpi]))
    rw [List.getElem?_eq_none (by simp)] at hy
    simp only at hy
    cases hl : kw.lookup p.name with
    | none =>
      rw [hl] at hy
      simp only [hr, if_true] at hy
      cases hy
    | some v =>
      obtain ⟨kv, hkv, hkn⟩ := List.mem_map.1 ((lookup_isSome kw p.name).1 ⟨v, hl⟩)
      exact ⟨kv.2, by rw [← hkn]; exact hkv⟩
  · rintro ⟨p, i⟩ hx
    have hpi := List.mem_zipIdx_iff_getElem?.1 hx
    simp only at hpi ⊢
    by_cases hi : i < pos.length
    · rw [List.getElem?_eq_getElem hi]
      exact ⟨_, rfl⟩
    · rw [List.getElem?_eq_none (by omega)]
      simp only
      cases hl : kw.lookup p.name with
      | some v => exact ⟨_, rfl⟩
      | none =>
        simp only
        by_cases hr : p.required = true
        · exfalso
          have hm : p ∈ params.drop pos.length := by
            refine List.mem_iff_getElem?.2 ⟨i - pos.length, ?_⟩
            rw [List.getElem?_drop, show pos.length + (i - pos.length) = i by omega]
            exact hpi
          obtain ⟨v, hv⟩ := h.2.2 p hm hr
          obtain ⟨w, hw⟩ := (lookup_isSome kw p.name).2 (List.mem_map.2 ⟨_, hv, rfl⟩)
          rw [hl] at hw
          cases hw
        · rw [if_neg hr]
          exact ⟨_, rfl⟩

/-- A call that cannot be bound raises TypeError. -/
theorem C121_type (params : List Param) (pos : List α) (kw : List (String × α)) (e : PyErr) (h : bindArgs params pos kw = .error e) :
    e = .type := by
  unfold bindArgs at h
  split at h
  · exact (Except.error.inj h).symm
  split at h
  · exact (Except.error.inj h).symm
  refine mapM_except_error _ _ .type ?_ e h
  rintro ⟨p, i⟩ _ e' he
  simp only at he
  split at he
  · cases he
  split at he
  · cases he
  split at he
  · exact (Except.error.inj he).symm
  · cases he

/-- **C121**: a `CollocationSimulator` cannot be constructed, whatever the arguments and whatever the rest of the constructor does: if
`Pdq(t, poly_order)` succeeds, `CollocationScheme(dae, pdq, tdp_fun=tdp_fun)` raises TypeError since `order` is missing. -/
theorem C121_simulator {K : Type} [Field K] [LinearOrder K] (cp : Except PyErr (List K)) (t : List K) (order : ℕ) (dae tdp_fun : α)
    (ofPdq : Pdq K → α) (rest : List (String × Option α) → Except PyErr α) :
    (∀ v, simulatorNew cp t order dae tdp_fun ofPdq rest ≠ .ok v) ∧
      (∀ p, Pdq.new cp t order = .ok p → simulatorNew cp t order dae tdp_fun ofPdq rest = .error .type) := by
  have hno : ∀ a : α, simulatorCall dae a tdp_fun = .error .type := by
    intro a
    cases h : simulatorCall dae a tdp_fun with
    | ok r =>
      exfalso
      obtain ⟨v, hv⟩ := ((C121_bind schemeSig [dae, a] [("tdp_fun", tdp_fun)]).1 ⟨r, h⟩).2.2 ⟨"order", true⟩
        (by simp [schemeSig]) rfl
      simp at hv
    | error e => rw [C121_type _ _ _ e h]
  unfold simulatorNew
  cases Pdq.new cp t order with
  | error e => exact ⟨fun v => (by intro h; cases h), fun p h => by cases h⟩
  | ok p =>
    simp only [bind, Except.bind, hno]
    exact ⟨fun v => (by intro h; cases h), fun _ _ => trivial⟩

/-- **C121**: `simulate` cannot return either: `SystemTrajectory()` raises TypeError. -/
theorem C121_simulate : simulateReturn (α := α) = .error .type := by
  cases h : simulateReturn (α := α) with
  | ok r =>
    exfalso
    obtain ⟨v, hv⟩ := ((C121_bind (α := α) trajectorySig [] []).1 ⟨r, h⟩).2.2 ⟨"x", true⟩ (by simp [trajectorySig]) rfl
    cases hv
  | error e => rw [C121_type _ _ _ e h]

/-- **C121**: the other calls bind as intended: the integrator hands its arguments to the parameters of the scheme with the same names,
the remaining ones have their defaults; and `collocationIntegrator` hands its arguments on. -/
theorem C121_integrator (name dae t order method tdp_fun : α) :
    integratorCall dae t order method tdp_fun = .ok [("dae", some dae), ("t", some t), ("order", some order), ("method", some method),
      ("parallelization", none), ("tdp_fun", some tdp_fun), ("expand", none), ("repeat_param", none), ("options", none)] ∧
    functionCall name dae t order method tdp_fun = .ok [("name", some name), ("dae", some dae), ("t", some t), ("order", some order),
      ("method", some method), ("tdp_fun", some tdp_fun)] := ⟨rfl, rfl⟩

/-- **C121**: of the properties of a `CollocationScheme`, `pdq` raises AttributeError, and all others can be read. -/
theorem C121_props (name : String) :
    ((∃ as, readProp name = .ok as) ↔ name ≠ "pdq" ∧ name ∈ schemeProps.map Prod.fst) ∧ readProp "pdq" = .error .attribute := by
  have key : ∀ n ∈ schemeProps.map Prod.fst, (match readProp n with | .ok _ => true | .error _ => false) = decide (n ≠ "pdq") := by
    decide +kernel
  refine ⟨⟨?_, ?_⟩, by decide +kernel⟩
  · rintro ⟨as, h⟩
    have hm : name ∈ schemeProps.map Prod.fst := by
      refine (lookup_isSome schemeProps name).1 ?_
      unfold readProp at h
      cases hl : schemeProps.lookup name with
      | none => rw [hl] at h; cases h
      | some v => exact ⟨v, rfl⟩
    refine ⟨?_, hm⟩
    have := key name hm
    rw [h] at this
    simpa using this.symm
  · rintro ⟨h1, h2⟩
    have := key name h2
    cases hr : readProp name with
    | ok as => exact ⟨as, rfl⟩
    | error e =>
      rw [hr] at this
      simp [h1] at this

-- the constructor as called in the (disabled) test: the grid is fine, the call of `CollocationScheme` raises
example : simulatorNew (K := ℚ) (α := ℕ) (.ok [0, 1]) [0, 1, 2] 1 0 0 (fun _ => 0) (fun _ => .ok 0) = .error .type := by
  obtain ⟨p, hp⟩ : ∃ p, Pdq.new (K := ℚ) (.ok [0, 1]) [0, 1, 2] 1 = .ok p := by
    cases h : Pdq.new (K := ℚ) (.ok [0, 1]) [0, 1, 2] 1 with
    | ok p => exact ⟨p, rfl⟩
    | error e =>
      have : (match Pdq.new (K := ℚ) (.ok [0, 1]) [0, 1, 2] 1 with | .ok _ => true | .error _ => false) = true := by decide +kernel
      rw [h] at this
      cases this
  exact (C121_simulator _ _ _ _ _ _ _).2 p hp

-- with `order` the call binds
example : (∃ r, bindArgs schemeSig [0, 1] [("order", 2), ("tdp_fun", 3)] = .ok r) :=
  (C121_bind _ _ _).2 (by simp [schemeSig])

-- an argument given twice, and an unknown keyword
example : bindArgs schemeSig [0, 1, 2] [("t", 3)] = .error .type ∧ bindArgs schemeSig [0, 1, 2] [("N", 3)] = .error .type := ⟨rfl, rfl⟩

-- the call in `CollocationIntegrator.__init__` and the class of all the exceptions
example : (∃ r, integratorCall 0 1 2 3 4 = .ok r ∧ r.lookup "method" = some (some 3)) ∧
    ∀ e, bindArgs schemeSig [0, 1, 2] [("N", 3)] = .error e → e = .type :=
  ⟨⟨_, (C121_integrator 9 0 1 2 3 4).1, rfl⟩, fun e h => C121_type _ _ _ e h⟩

end CE
