import Verif.Num.PropsPdq3
import Verif.Num.PropsPiecewise2
import Verif.Num.PropsDae
import Verif.Num.SystemTrajectory
import Verif.Num.PropsButcher

/-! # The exception classes of the constructors (C86, numeric part) -/

namespace CE

theorem mapM_error_of {α β : Type} {f : α → Except PyErr β} {l : List α} {e : PyErr} (h : l.mapM f = .error e) :
    ∃ a ∈ l, f a = .error e := by
  induction l with
  | nil => cases h
  | cons a l ih =>
    rw [List.mapM_cons] at h
    cases ha : f a with
    | error e' =>
      rw [ha] at h
      cases h
      exact ⟨a, List.mem_cons_self, ha⟩
    | ok b =>
      rw [ha] at h
      cases hl : l.mapM f with
      | error e' =>
        rw [hl] at h
        cases h
        obtain ⟨a', h1, h2⟩ := ih hl
        exact ⟨a', List.mem_cons_of_mem _ h1, h2⟩
      | ok r =>
        rw [hl] at h
        cases h

theorem mapM_ok_of {α β : Type} {f : α → Except PyErr β} {l : List α} {r : List β} (h : l.mapM f = .ok r) :
    r.length = l.length ∧ ∀ b ∈ r, ∃ a ∈ l, f a = .ok b := by
  induction l generalizing r with
  | nil => cases h; exact ⟨rfl, by simp⟩
  | cons a l ih =>
    rw [List.mapM_cons] at h
    cases ha : f a with
    | error e' => rw [ha] at h; cases h
    | ok b =>
      rw [ha] at h
      cases hl : l.mapM f with
      | error e' => rw [hl] at h; cases h
      | ok r' =>
        rw [hl] at h
        cases h
        obtain ⟨h1, h2⟩ := ih hl
        refine ⟨by simp [h1], ?_⟩
        intro b' hb'
        rcases List.mem_cons.1 hb' with rfl | hb'
        · exact ⟨a, List.mem_cons_self, ha⟩
        · obtain ⟨a', h3, h4⟩ := h2 b' hb'
          exact ⟨a', List.mem_cons_of_mem _ h3, h4⟩

/-- **C86** (tableaux): the constructor of a Butcher tableau raises nothing but AssertionError. -/
theorem C86_tableau {K : Type} (A b c : NdArray K) (e : PyErr) (h : ButcherTableau.new A b c = .error e) :
    e = .assertion := by
  unfold ButcherTableau.new at h
  split_ifs at h <;> cases h <;> rfl

section
variable {K : Type} [Field K] [LinearOrder K] [IsStrictOrderedRing K]

omit [IsStrictOrderedRing K] in
/-- **C86** (piecewise polynomials): the constructor raises nothing but AssertionError. -/
theorem C86_piecewise (iv : List K) (cs : List (Mat K)) (b : Basis K) (e : PyErr) (h : PiecewisePoly.new iv cs b = .error e) :
    e = .assertion := by
  unfold PiecewisePoly.new at h
  split_ifs at h <;> cases h <;> rfl

/-- **C86** (evaluation): a call of a piecewise polynomial raises nothing but ValueError, for an unknown side or no points. -/
theorem C86_call (pp : PiecewisePoly K) (tau : List K) (R : ℕ) (w : pp.WF tau R) (t : List K) (m : String) (e : PyErr)
    (h : pp.call t m = .error e) : e = .value ∧ (t = [] ∨ (m ≠ "left" ∧ m ≠ "right")) := by
  refine ⟨?_, (C12_total pp tau R w t m).1 ⟨e, h⟩⟩
  rcases (C12_total pp tau R w t m).1 ⟨e, h⟩ with rfl | ⟨h1, h2⟩
  · unfold PiecewisePoly.call at h
    cases hs : PiecewisePoly.parseSide m with
    | error e' =>
      rw [hs] at h
      cases h
      unfold PiecewisePoly.parseSide at hs
      split at hs <;> cases hs
      rfl
    | ok s =>
      rw [hs] at h
      cases h
      rfl
  · rw [C12_invalid_mode pp t m h1 h2] at h
    cases h
    rfl

omit [IsStrictOrderedRing K] in
theorem intervalBasis_class {cp t : List K} {order i : ℕ} (hi : i + 1 < t.length) :
    (∀ e, Pdq.intervalBasis (.ok cp) t order i = .error e → e = .assertion) ∧
    ∀ r, Pdq.intervalBasis (.ok cp) t order i = .ok r → r.1.length = order + 1 := by
  have h1 : pyIndex t ((i : ℤ) + 1) = .ok t[i + 1] := by exact_mod_cast pyIndex_nat hi
  have h2 : pyIndex t (i : ℤ) = .ok (t[i]'(by omega)) := pyIndex_nat (by omega)
  unfold Pdq.intervalBasis
  simp only [bind, Except.bind, h1, h2]
  cases hb : polynomialBasis (cp.map fun x => x * (t[i + 1] - t[i]'(by omega)) + t[i]'(by omega)) with
  | error e' =>
    unfold polynomialBasis at hb
    split_ifs at hb
    cases hb
    exact ⟨fun e h => by cases h; rfl, fun r h => by cases h⟩
  | ok b =>
    simp only
    split_ifs with h3 h4 h5
    all_goals first
      | exact ⟨fun e h => by cases h; rfl, fun r h => by cases h⟩
      | exact ⟨fun e h => (by cases h), fun r h => by cases h; first | exact h4 | exact not_not.1 h4⟩

omit [IsStrictOrderedRing K] in
/-- **C86** (grids): for a family of points that exists and at least one interval the constructor of a grid raises nothing
but AssertionError. -/
theorem C86_grid (cp : List K) (order : ℕ) (t : List K) (ht : 2 ≤ t.length) (e : PyErr)
    (h : Pdq.new (.ok cp) t order = .error e) : e = .assertion := by
  unfold Pdq.new at h
  simp only [bind, Except.bind] at h
  cases hm : (List.range (t.length - 1)).mapM (Pdq.intervalBasis (.ok cp) t order) with
  | error e' =>
    rw [hm] at h
    cases h
    obtain ⟨i, hi, he⟩ := mapM_error_of hm
    have := List.mem_range.1 hi
    exact (intervalBasis_class (by omega)).1 _ he
  | ok l =>
    rw [hm] at h
    simp only at h
    obtain ⟨hlen, hall⟩ := mapM_ok_of hm
    cases hl : l.getLast? with
    | none =>
      rw [List.getLast?_eq_none_iff] at hl
      subst hl
      simp at hlen
      omega
    | some tb =>
      rw [hl] at h
      simp only at h
      have hmem : tb ∈ l := List.mem_of_getLast? hl
      have hne : tb.1 ≠ [] := by
        obtain ⟨i, hi, he⟩ := hall tb hmem
        have := List.mem_range.1 hi
        have h3 := (intervalBasis_class (by omega)).2 _ he
        intro h4
        rw [h4] at h3
        cases h3
      rw [pyIndex_last _ hne] at h
      cases h

/-- **C86** (trajectories): for a grid of the constructor, a trajectory raises nothing but AssertionError. -/
theorem C86_trajectory (cp : List K) (order : ℕ) (g : GoodScheme cp order) (t : List K) (p : Pdq K)
    (hp : Pdq.new (.ok cp) t order = .ok p) (x z u : Mat K) (e : PyErr) (h : SystemTrajectory.new x z u p = .error e) :
    e = .assertion := by
  obtain ⟨f, hf, -⟩ := (C21_errors cp order g t p hp "both").1 (by simp)
  obtain ⟨f', hf', -⟩ := (C21_errors cp order g t p hp "right").1 (by simp)
  unfold SystemTrajectory.new at h
  simp only [hf, hf'] at h
  split_ifs at h <;> cases h <;> rfl

end

section
variable {K : Type} [Field K]

/-- **C86** (models): the base constructor raises KeyError exactly if `x` is missing, and nothing but ValueError otherwise. -/
theorem C86_dae_base (fresh : String → ℕ) (kw : DaeArgs K) (e : PyErr) (h : DaeObj.newBase fresh kw = .error e) :
    (e = .key ∧ kw.x = none) ∨ (e = .value ∧ kw.x ≠ none) := by
  classical
  cases hx : kw.x with
  | none =>
    rw [newBase_none fresh kw hx] at h
    cases h
    exact .inl ⟨rfl, rfl⟩
  | some x =>
    rw [newBase_eq fresh kw x hx] at h
    split_ifs at h
    cases h
    exact .inr ⟨rfl, by simp⟩

/-- **C86** (implicit models): KeyError only if one of `x`, `xdot`, `dae` is missing, and nothing but ValueError otherwise. -/
theorem C86_dae_implicit (fresh : String → ℕ) (kw : DaeArgs K) (e : PyErr) (h : DaeObj.newImplicit fresh kw = .error e) :
    (e = .key ∧ (kw.x = none ∨ kw.xdot = none ∨ kw.dae = none)) ∨ (e = .value ∧ kw.x ≠ none) := by
  unfold DaeObj.newImplicit at h
  simp only [bind, Except.bind] at h
  cases hb : DaeObj.newBase fresh kw with
  | error e' =>
    rw [hb] at h
    cases h
    rcases C86_dae_base fresh kw e hb with ⟨h1, h2⟩ | h1
    · exact .inl ⟨h1, .inl h2⟩
    · exact .inr h1
  | ok o =>
    have hx : kw.x ≠ none := by
      intro hx
      rw [newBase_none fresh kw hx] at hb
      cases hb
    rw [hb] at h
    simp only at h
    cases hd : kw.xdot with
    | none =>
      rw [hd] at h
      cases h
      exact .inl ⟨rfl, .inr (.inl rfl)⟩
    | some xdot =>
      rw [hd] at h
      simp only at h
      cases ha : kw.dae with
      | none =>
        rw [ha] at h
        split_ifs at h <;> cases h <;> first | exact .inr ⟨rfl, hx⟩ | exact .inl ⟨rfl, .inr (.inr rfl)⟩
      | some dae =>
        rw [ha] at h
        simp only at h
        split_ifs at h <;> first | (cases h; exact .inr ⟨rfl, hx⟩) | cases h

end

/-! ## Examples -/

/-- A grid that does not ascend, a tableau that is not square, a model without `x`. -/
example : Pdq.new (.ok legendre1) ([1, 0] : List ℚ) 1 = .error .assertion ∧
    ButcherTableau.new (NdArray.mat2 2 1 fun _ _ => (0 : ℚ)) (NdArray.vec [0]) (NdArray.vec [0, 0]) = .error .assertion ∧
    DaeObj.newImplicit (fun _ => 0) ({ xdot := some (.sym 0 1) } : DaeArgs ℚ) = .error .key ∧
    DaeObj.newImplicit (fun _ => 0) ({ x := some (.sym 0 1), xdot := some (.sym 1 2) } : DaeArgs ℚ) = .error .value :=
  ⟨by
    cases h : Pdq.new (.ok legendre1) ([1, 0] : List ℚ) 1 with
    | error e => rw [C86_grid legendre1 1 [1, 0] (by simp) e h]
    | ok p =>
      have := ((C17_ctor legendre1 1 legendre1_good [1, 0]).1 ⟨p, h⟩).2 0 (by simp)
      norm_num [nd] at this, rfl, rfl, rfl⟩

/-- The class of an invalid call. -/
example : exPP.call [] "left" = .error .value := rfl

/-- The classes of the exceptions of the constructors and calls, whatever the other arguments are. -/
example (cs : List (Mat ℚ)) (t : List ℚ) (b c : NdArray ℚ) (kw : DaeArgs ℚ) (fresh : String → ℕ) (e : PyErr) :
    (PiecewisePoly.new [0, 1, 3] cs exPP.basis = .error e → e = .assertion) ∧
    (exPP.call t "middle" = .error e → e = .value) ∧
    (ButcherTableau.new (NdArray.vec [1]) b c = .error e → e = .assertion) ∧
    (DaeObj.newBase fresh { kw with x := some (.sym 0 2) } = .error e → e = .value) := by
  refine ⟨C86_piecewise _ _ _ e, fun h => (C86_call exPP _ _ exPP_wf t _ e h).1, C86_tableau _ _ _ e, fun h => ?_⟩
  rcases C86_dae_base fresh _ e h with ⟨-, h2⟩ | h2
  · cases h2
  · exact h2.1

/-- A trajectory with too few columns: AssertionError. -/
example (p : Pdq ℚ) (hp : Pdq.new (.ok legendre1) [0, 1] 1 = .ok p) (z u : Mat ℚ) (e : PyErr)
    (h : SystemTrajectory.new ⟨1, 0, fun _ _ => 0⟩ z u p = .error e) : e = .assertion :=
  C86_trajectory legendre1 1 legendre1_good [0, 1] p hp _ z u e h

end CE
