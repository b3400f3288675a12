import Verif.Num.Dae
import Mathlib.Tactic.SplitIfs
import Mathlib.Tactic.NormNum
import Mathlib.Tactic.Ring

/-!
# Properties C32-C34: DAE models
-/

namespace CE

variable {K : Type} [Field K]

/-! ## Specification of well-formed arguments -/

/-- A column of symbols. -/
def SymColumn (e : MXExpr K) : Prop := e.cols = 1 ∧ e.validInput = true

/-- The conditions on the arguments common to all classes. -/
structure WellFormedBase (kw : DaeArgs K) : Prop where
  x : ∃ x, kw.x = some x ∧ SymColumn x
  z : ∀ z, kw.z = some z → SymColumn z
  u : ∀ u, kw.u = some u → SymColumn u
  p : ∀ p, kw.p = some p → p.validInput = true
  t : ∀ t, kw.t = some t → t.validInput = true ∧ t.rows = 1 ∧ t.cols = 1
  tdp : ∀ p, kw.tdp = some p → p.validInput = true

/-- Number of elements of an optional argument; an omitted one has none. -/
def optNumel : Option (MXExpr K) → ℕ
  | none => 0
  | some e => e.rows * e.cols

/-- The conditions on the arguments of `SemiExplicitDae`. -/
structure WellFormedSemi (kw : DaeArgs K) : Prop extends WellFormedBase kw where
  ode : ∃ ode, kw.ode = some ode ∧ ode.cols = 1 ∧ ode.rows * ode.cols = optNumel kw.x
  alg : ∀ alg, kw.alg = some alg → alg.cols = 1 ∧ alg.rows * alg.cols = optNumel kw.z

/-- The conditions on the arguments of `ImplicitDae`. -/
structure WellFormedImplicit (kw : DaeArgs K) : Prop extends WellFormedBase kw where
  xdot : ∃ xdot, kw.xdot = some xdot ∧ xdot.cols = 1 ∧ xdot.rows * xdot.cols = optNumel kw.x
  dae : ∃ dae, kw.dae = some dae ∧ dae.cols = 1 ∧ dae.rows * dae.cols = optNumel kw.z + optNumel kw.x

/-- The supplied argument is used unchanged; an omitted one is an empty column. -/
def SuppliedOrEmpty (given : Option (MXExpr K)) (e : MXExpr K) : Prop :=
  (∀ g, given = some g → e = g) ∧ (given = none → e.rows = 0 ∧ e.cols = 1)

/-- The object has the supplied parts, empty columns for omitted parts and a symbolic scalar for an omitted time. -/
structure HasParts (kw : DaeArgs K) (o : DaeObj K) (tid : ℕ) : Prop where
  x : kw.x = some o.x
  z : SuppliedOrEmpty kw.z o.z
  u : SuppliedOrEmpty kw.u o.u
  p : SuppliedOrEmpty kw.p o.p
  quad : SuppliedOrEmpty kw.quad o.quad
  tdp : SuppliedOrEmpty kw.tdp o.tdp
  t : (∀ g, kw.t = some g → o.t = g) ∧ (kw.t = none → o.t = MXExpr.sym tid 1)

/-! ## Evaluation of the checks -/

section Lemmas
open Classical

theorem checkColumnSym_eq (e : Option (MXExpr K)) (d : MXExpr K) :
    checkColumnSym e d = if ∀ z, e = some z → SymColumn z then .ok (e.getD d) else .error .value := by
  cases e with
  | none => simp [checkColumnSym]
  | some z =>
    simp only [checkColumnSym, MXExpr.isColumn, SymColumn]
    by_cases h1 : z.cols = 1 <;> by_cases h2 : z.validInput = true <;> simp [h1, h2]

theorem checkSym_eq (e : Option (MXExpr K)) (d : MXExpr K) :
    checkSym e d = if ∀ z, e = some z → z.validInput = true then .ok (e.getD d) else .error .value := by
  cases e with
  | none => simp [checkSym]
  | some z => simp only [checkSym]; by_cases h2 : z.validInput = true <;> simp [h2]

theorem checkTime_eq (e : Option (MXExpr K)) (d : MXExpr K) :
    checkTime e d = if ∀ z, e = some z → z.validInput = true ∧ z.rows = 1 ∧ z.cols = 1 then .ok (e.getD d)
      else .error .value := by
  cases e with
  | none => simp [checkTime]
  | some z =>
    simp only [checkTime, MXExpr.isScalar]
    by_cases h2 : z.validInput = true <;> by_cases h3 : z.rows = 1 <;> by_cases h4 : z.cols = 1 <;> simp [h2, h3, h4]

/-- The object built from well-formed arguments. -/
def baseObj (fresh : String → ℕ) (kw : DaeArgs K) (x : MXExpr K) : DaeObj K :=
  ⟨x, kw.z.getD (MXExpr.sym (fresh "z") 0), kw.u.getD (MXExpr.sym (fresh "u") 0),
    kw.p.getD (MXExpr.sym (fresh "p") 0), kw.t.getD (MXExpr.sym (fresh "t") 1),
    kw.quad.getD (MXExpr.sym (fresh "quad") 0), kw.tdp.getD (MXExpr.sym (fresh "tdp") 0), .base⟩

theorem newBase_none (fresh : String → ℕ) (kw : DaeArgs K) (h : kw.x = none) :
    DaeObj.newBase fresh kw = .error .key := by
  unfold DaeObj.newBase; rw [h]

theorem newBase_eq (fresh : String → ℕ) (kw : DaeArgs K) (x : MXExpr K) (h : kw.x = some x) :
    DaeObj.newBase fresh kw = if WellFormedBase kw then .ok (baseObj fresh kw x) else .error .value := by
  unfold DaeObj.newBase
  rw [h]
  simp only [checkColumnSym_eq, checkSym_eq, checkTime_eq, MXExpr.isColumn]
  by_cases h1 : x.cols = 1
  swap
  · rw [if_pos (by simp [h1]), if_neg]
    rintro ⟨⟨x', hx', hc⟩, -⟩
    rw [h] at hx'; cases hx'; exact h1 hc.1
  by_cases h2 : x.validInput = true
  swap
  · rw [if_neg (by simp [h1]), if_pos (by simp [h2]), if_neg]
    rintro ⟨⟨x', hx', hc⟩, -⟩
    rw [h] at hx'; cases hx'; exact h2 hc.2
  rw [if_neg (by simp [h1]), if_neg (by simp [h2])]
  by_cases hz : ∀ z, kw.z = some z → SymColumn z
  swap
  · rw [if_neg hz, if_neg (fun w : WellFormedBase kw => hz w.z)]; rfl
  by_cases hu : ∀ z, kw.u = some z → SymColumn z
  swap
  · rw [if_pos hz, if_neg hu, if_neg (fun w : WellFormedBase kw => hu w.u)]; rfl
  by_cases hp : ∀ z, kw.p = some z → z.validInput = true
  swap
  · rw [if_pos hz, if_pos hu, if_neg hp, if_neg (fun w : WellFormedBase kw => hp w.p)]; rfl
  by_cases ht : ∀ z, kw.t = some z → z.validInput = true ∧ z.rows = 1 ∧ z.cols = 1
  swap
  · rw [if_pos hz, if_pos hu, if_pos hp, if_neg ht, if_neg (fun w : WellFormedBase kw => ht w.t)]; rfl
  by_cases hd : ∀ z, kw.tdp = some z → z.validInput = true
  swap
  · rw [if_pos hz, if_pos hu, if_pos hp, if_pos ht, if_neg hd, if_neg (fun w : WellFormedBase kw => hd w.tdp)]; rfl
  rw [if_pos hz, if_pos hu, if_pos hp, if_pos ht, if_pos hd, if_pos ⟨⟨x, h, h1, h2⟩, hz, hu, hp, ht, hd⟩]
  rfl

theorem checkAlg_eq (fresh : String → ℕ) (z : MXExpr K) (e : Option (MXExpr K)) :
    checkAlg fresh z e = if ∀ a, e = some a → a.cols = 1 ∧ a.rows * a.cols = z.numel
      then .ok (e.getD (MXExpr.sym (fresh "alg") 0)) else .error .value := by
  cases e with
  | none => simp [checkAlg]
  | some a =>
    simp only [checkAlg, MXExpr.isColumn, MXExpr.numel]
    by_cases h1 : a.cols = 1 <;> by_cases h2 : z.rows * z.cols = a.rows * a.cols <;>
      simp_all [eq_comm]

theorem baseObj_nz (fresh : String → ℕ) (kw : DaeArgs K) (x : MXExpr K) :
    (baseObj fresh kw x).z.numel = optNumel kw.z := by
  cases h : kw.z <;> simp [baseObj, h, optNumel, MXExpr.numel, MXExpr.sym]

theorem baseObj_hasParts (fresh : String → ℕ) (kw : DaeArgs K) (x : MXExpr K) (h : kw.x = some x) (k : DaeKind K) :
    HasParts kw { baseObj fresh kw x with kind := k } (fresh "t") := by
  refine ⟨h, ⟨?_, ?_⟩, ⟨?_, ?_⟩, ⟨?_, ?_⟩, ⟨?_, ?_⟩, ⟨?_, ?_⟩, ⟨?_, ?_⟩⟩ <;>
    intros <;> simp_all [baseObj, MXExpr.sym]

/-- The value of the constructor when `x` is supplied. -/
theorem newSemi_eq (fresh : String → ℕ) (kw : DaeArgs K) (x ode : MXExpr K) (h : kw.x = some x)
    (ho : kw.ode = some ode) :
    DaeObj.newSemi fresh kw = if WellFormedSemi kw then
      .ok { baseObj fresh kw x with kind := .semi ode (kw.alg.getD (MXExpr.sym (fresh "alg") 0)) }
      else .error .value := by
  unfold DaeObj.newSemi
  rw [newBase_eq fresh kw x h, ho]
  by_cases hb : WellFormedBase kw
  swap
  · rw [if_neg hb, if_neg (fun w : WellFormedSemi kw => hb w.toWellFormedBase)]; rfl
  rw [if_pos hb]
  have hx : (baseObj fresh kw x).x = x := rfl
  simp only [Except.bind, bind, checkAlg_eq, baseObj_nz, hx, MXExpr.isColumn]
  by_cases h1 : ode.cols = 1
  swap
  · rw [if_pos (by simp [h1]), if_neg]
    rintro ⟨_, ⟨o, ho', hc, _⟩, _⟩
    rw [ho] at ho'; cases ho'; exact h1 hc
  by_cases h2 : x.numel = ode.numel
  swap
  · rw [if_neg (by simp [h1]), if_pos h2, if_neg]
    rintro ⟨_, ⟨o, ho', _, hc⟩, _⟩
    rw [ho] at ho'; cases ho'
    rw [h] at hc
    exact h2 hc.symm
  rw [if_neg (by simp [h1]), if_neg (by simpa using h2)]
  by_cases ha : ∀ a, kw.alg = some a → a.cols = 1 ∧ a.rows * a.cols = optNumel kw.z
  swap
  · rw [if_neg ha, if_neg (fun w : WellFormedSemi kw => ha w.alg)]
  rw [if_pos ha, if_pos ⟨hb, ⟨ode, ho, h1, by rw [h]; exact h2.symm⟩, ha⟩]
  rfl

/-- The value of the constructor of `ImplicitDae` when all required arguments are supplied. -/
theorem newImplicit_eq (fresh : String → ℕ) (kw : DaeArgs K) (x xdot dae : MXExpr K) (h : kw.x = some x)
    (hxd : kw.xdot = some xdot) (hd : kw.dae = some dae) :
    DaeObj.newImplicit fresh kw = if WellFormedImplicit kw then
      .ok { baseObj fresh kw x with kind := .implicit xdot dae } else .error .value := by
  unfold DaeObj.newImplicit
  rw [newBase_eq fresh kw x h, hxd, hd]
  by_cases hb : WellFormedBase kw
  swap
  · rw [if_neg hb, if_neg (fun w : WellFormedImplicit kw => hb w.toWellFormedBase)]; rfl
  rw [if_pos hb]
  have hx : (baseObj fresh kw x).x = x := rfl
  simp only [Except.bind, bind, baseObj_nz, hx, MXExpr.isColumn]
  by_cases h1 : xdot.cols = 1
  swap
  · rw [if_pos (by simp [h1]), if_neg]
    rintro ⟨_, ⟨o, ho', hc, _⟩, _⟩
    rw [hxd] at ho'; cases ho'; exact h1 hc
  by_cases h2 : x.numel = xdot.numel
  swap
  · rw [if_neg (by simp [h1]), if_pos h2, if_neg]
    rintro ⟨_, ⟨o, ho', _, hc⟩, _⟩
    rw [hxd] at ho'; cases ho'
    rw [h] at hc
    exact h2 hc.symm
  rw [if_neg (by simp [h1]), if_neg (by simpa using h2)]
  by_cases h3 : dae.cols = 1
  swap
  · rw [if_pos (by simp [h3]), if_neg]
    rintro ⟨_, _, ⟨o, ho', hc, _⟩⟩
    rw [hd] at ho'; cases ho'; exact h3 hc
  have hxn : optNumel kw.x = x.numel := by rw [h]; rfl
  by_cases h4 : optNumel kw.z + xdot.numel = dae.numel
  swap
  · rw [if_neg (by simp [h3]), if_pos h4, if_neg]
    rintro ⟨_, _, ⟨o, ho', _, hc⟩⟩
    rw [hd] at ho'; cases ho'
    rw [hxn, h2] at hc
    exact h4 hc.symm
  rw [if_neg (by simp [h3]), if_neg (by simpa using h4), if_pos]
  · rfl
  · exact ⟨hb, ⟨xdot, hxd, h1, by rw [hxn]; exact h2.symm⟩, ⟨dae, hd, h3, by rw [hxn, h2]; exact h4.symm⟩⟩

end Lemmas

/-! ## C32 -/

/-- **C32** `SemiExplicitDae(**kw)` succeeds exactly on well-formed arguments; the object has the supplied parts and
empty columns (for the time: a fresh scalar symbol) for omitted ones. -/
theorem C32_accepts (fresh : String → ℕ) (kw : DaeArgs K) :
    ((∃ o, DaeObj.newSemi fresh kw = .ok o) ↔ WellFormedSemi kw) ∧
    ∀ o, DaeObj.newSemi fresh kw = .ok o → HasParts kw o (fresh "t") ∧
      ∃ ode alg, o.kind = .semi ode alg ∧ kw.ode = some ode ∧ SuppliedOrEmpty kw.alg alg := by
  classical
  cases hx : kw.x with
  | none =>
    have : DaeObj.newSemi fresh kw = .error .key := by
      unfold DaeObj.newSemi; rw [newBase_none fresh kw hx]; rfl
    rw [this]
    refine ⟨⟨(fun ⟨_, h⟩ => nomatch h), ?_⟩, fun _ h => nomatch h⟩
    rintro ⟨⟨⟨x, h, _⟩, -⟩, -⟩
    rw [hx] at h; cases h
  | some x =>
    cases ho : kw.ode with
    | none =>
      have key : ∀ o, DaeObj.newSemi fresh kw ≠ .ok o := by
        intro o h
        unfold DaeObj.newSemi at h
        rw [newBase_eq fresh kw x hx, ho] at h
        split_ifs at h <;> cases h
      refine ⟨⟨by rintro ⟨o, h⟩; exact (key o h).elim, ?_⟩, fun o h => (key o h).elim⟩
      rintro ⟨_, ⟨o, h, _⟩, _⟩
      rw [ho] at h; cases h
    | some ode =>
      rw [newSemi_eq fresh kw x ode hx ho]
      by_cases w : WellFormedSemi kw
      · rw [if_pos w]
        refine ⟨⟨fun _ => w, fun _ => ⟨_, rfl⟩⟩, ?_⟩
        rintro o h
        cases h
        refine ⟨baseObj_hasParts fresh kw x hx _, ode, _, rfl, rfl, ?_, ?_⟩
        · intro g hg; simp [hg]
        · intro hg; simp [hg, MXExpr.sym]
      · rw [if_neg w]
        exact ⟨⟨(fun ⟨_, h⟩ => nomatch h), fun h => (w h).elim⟩, fun _ h => nomatch h⟩

/-- **C32** The exceptions: KeyError if `x` is missing; with `x` and `ode` supplied every other defect is a ValueError;
with `ode` missing it is KeyError unless one of the other arguments is rejected (ValueError) before. -/
theorem C32_errors (fresh : String → ℕ) (kw : DaeArgs K) :
    (kw.x = none → DaeObj.newSemi fresh kw = .error .key) ∧
    (kw.ode = none → WellFormedBase kw → DaeObj.newSemi fresh kw = .error .key) ∧
    (kw.ode = none → kw.x ≠ none → ¬ WellFormedBase kw → DaeObj.newSemi fresh kw = .error .value) ∧
    (kw.x ≠ none → kw.ode ≠ none → ¬ WellFormedSemi kw → DaeObj.newSemi fresh kw = .error .value) := by
  classical
  refine ⟨?_, ?_, ?_, ?_⟩
  · intro hx; unfold DaeObj.newSemi; rw [newBase_none fresh kw hx]; rfl
  · intro ho w
    obtain ⟨x, hx, _⟩ := w.x
    unfold DaeObj.newSemi
    rw [newBase_eq fresh kw x hx, if_pos w, ho]; rfl
  · intro ho hx w
    obtain ⟨x, hx⟩ := Option.ne_none_iff_exists'.mp hx
    unfold DaeObj.newSemi
    rw [newBase_eq fresh kw x hx, if_neg w]; rfl
  · intro hx ho w
    obtain ⟨x, hx⟩ := Option.ne_none_iff_exists'.mp hx
    obtain ⟨ode, ho⟩ := Option.ne_none_iff_exists'.mp ho
    rw [newSemi_eq fresh kw x ode hx ho, if_neg w]

/-- A model with 2 states, 1 algebraic state, 1 input: `ode = (x1, u)`, `alg = z - x0`. -/
def demoArgs : DaeArgs ℚ :=
  { x := some (.sym 0 2), z := some (.sym 1 1), u := some (.sym 2 1),
    ode := some ⟨2, 1, false, fun env i _ => if i = 0 then env 0 1 0 else env 2 0 0⟩,
    alg := some ⟨1, 1, false, fun env _ _ => env 1 0 0 - env 0 0 0⟩ }

theorem demoArgs_wf : WellFormedSemi demoArgs := by
  refine ⟨⟨⟨_, rfl, rfl, rfl⟩, ?_, ?_, ?_, ?_, ?_⟩, ⟨_, rfl, rfl, rfl⟩, ?_⟩ <;>
    simp [demoArgs, SymColumn, MXExpr.sym, optNumel]

/-- Non-vacuity: the demo model is accepted; with an `ode` of three elements it is a ValueError. -/
example (fresh : String → ℕ) : (∃ o, DaeObj.newSemi fresh demoArgs = .ok o) ∧
    DaeObj.newSemi fresh { demoArgs with ode := some (.sym 5 3) } = .error .value := by
  refine ⟨(C32_accepts fresh demoArgs).1.mpr demoArgs_wf, (C32_errors fresh _).2.2.2 (by simp [demoArgs]) (by simp) ?_⟩
  rintro ⟨_, ⟨o, h, _, h2⟩, _⟩
  simp only [Option.some.injEq] at h
  subst h
  simp [MXExpr.sym, demoArgs, optNumel] at h2

/-- **C32, finding**: `alg` may be omitted although there are algebraic states; the model is accepted with `nz > 0` and no
algebraic equation. -/
theorem C32_missing_alg_accepted (fresh : String → ℕ) : ∃ (o : DaeObj ℚ) (ode alg : MXExpr ℚ),
    DaeObj.newSemi fresh { x := some (.sym 0 1), z := some (.sym 1 1), ode := some (.sym 0 1) } = .ok o ∧
      o.nz = 1 ∧ o.kind = .semi ode alg ∧ alg.numel = 0 :=
  ⟨_, _, _, rfl, rfl, rfl, rfl⟩

/-! ## C33 -/

/-- An object as the constructor of `SemiExplicitDae` leaves it. -/
theorem semi_invariant (fresh : String → ℕ) (kw : DaeArgs K) (o : DaeObj K)
    (ho : DaeObj.newSemi fresh kw = .ok o) :
    SymColumn o.x ∧ SymColumn o.z ∧ SymColumn o.u ∧ o.p.validInput = true ∧
      (o.t.validInput = true ∧ o.t.rows = 1 ∧ o.t.cols = 1) ∧ o.tdp.validInput = true ∧
      ∃ ode alg, o.kind = .semi ode alg ∧ ode.cols = 1 ∧ ode.rows = o.nx ∧ alg.cols = 1 ∧
        ((kw.alg ≠ none ∨ kw.z = none) → alg.rows = o.nz) ∧
        (kw.alg = none → alg.rows = 0) := by
  have hw := (C32_accepts fresh kw).1.mp ⟨o, ho⟩
  obtain ⟨hp, ode, alg, hk, hode, halg⟩ := (C32_accepts fresh kw).2 o ho
  have hd : SymColumn o.z := by
    cases h : kw.z with
    | some z => rw [hp.z.1 z h]; exact hw.z z h
    | none =>
      classical
      rw [newSemi_eq fresh kw o.x ode hp.x hode, if_pos hw] at ho
      rw [← Except.ok.inj ho]; simp [baseObj, h, SymColumn, MXExpr.sym]
  have hobj := ho
  classical
  rw [newSemi_eq fresh kw o.x ode hp.x hode, if_pos hw] at hobj
  have hobj := Except.ok.inj hobj
  obtain ⟨x, hx, hxs⟩ := hw.x
  have hxe : o.x = x := by have := hp.x; rw [hx] at this; exact (Option.some.inj this).symm
  obtain ⟨ode', ho', hoc, hon⟩ := hw.ode
  rw [hode] at ho'; cases ho'
  refine ⟨hxe ▸ hxs, hd, ?_, ?_, ?_, ?_, ode, alg, hk, hoc, ?_, ?_, ?_, ?_⟩
  · cases h : kw.u with
    | some z => rw [hp.u.1 z h]; exact hw.u z h
    | none => rw [← hobj]; simp [baseObj, h, SymColumn, MXExpr.sym]
  · cases h : kw.p with
    | some z => rw [hp.p.1 z h]; exact hw.p z h
    | none => rw [← hobj]; simp [baseObj, h, MXExpr.sym]
  · cases h : kw.t with
    | some z => rw [hp.t.1 z h]; exact hw.t z h
    | none => rw [hp.t.2 h]; simp [MXExpr.sym]
  · cases h : kw.tdp with
    | some z => rw [hp.tdp.1 z h]; exact hw.tdp z h
    | none => rw [← hobj]; simp [baseObj, h, MXExpr.sym]
  · rw [hp.x] at hon
    simpa [optNumel, hoc, DaeObj.nx, MXExpr.numel] using hon
  · cases h : kw.alg with
    | some a => rw [halg.1 a h]; exact (hw.alg a h).1
    | none => exact (halg.2 h).2
  · intro hc
    have hz : o.nz = optNumel kw.z := by rw [← hobj]; exact baseObj_nz fresh kw o.x
    cases h : kw.alg with
    | some a =>
      rw [halg.1 a h, hz]
      have := hw.alg a h
      simpa [this.1] using this.2
    | none =>
      rw [(halg.2 h).1, hz]
      rcases hc with hc | hc
      · exact (hc h).elim
      · simp [hc, optNumel]
  · intro h; exact (halg.2 h).1

/-- The residual `dae` of an implicit model vanishes under the assignment. -/
def ResidualZero (dae : MXExpr K) (env : Env K) : Prop := ∀ i < dae.rows, ∀ j < dae.cols, dae.val env i j = 0

/-- **C33** (partial: the English claim covers every accepted model, see `C33_refuted_missing_alg`).  For a model whose
`alg` was supplied, or which has no algebraic states, `makeImplicit` succeeds; `x,z,u,p,t,quad,tdp` are the same; `xdot`
is a column of `nx` new symbols; there are `nx + nz` residuals and they vanish exactly when `xdot = ode` and `alg = 0`. -/
theorem C33_makeImplicit_partial (fresh fresh' : String → ℕ) (kw : DaeArgs K) (o : DaeObj K)
    (ho : DaeObj.newSemi fresh kw = .ok o) (halg : kw.alg ≠ none ∨ kw.z = none) :
    ∃ o' ode alg xdot dae, o.kind = .semi ode alg ∧ o.makeImplicit fresh' = .ok o' ∧ o'.kind = .implicit xdot dae ∧
      o'.x = o.x ∧ o'.z = o.z ∧ o'.u = o.u ∧ o'.p = o.p ∧ o'.t = o.t ∧ o'.quad = o.quad ∧ o'.tdp = o.tdp ∧
      xdot = MXExpr.sym (fresh' "xdot") o.nx ∧ dae.rows = o.nx + o.nz ∧ dae.cols = 1 ∧
      ∀ env, ResidualZero dae env ↔
        (∀ i < o.nx, env (fresh' "xdot") i 0 = ode.val env i 0) ∧ (∀ i < o.nz, alg.val env i 0 = 0) := by
  obtain ⟨hx, hz, hu, hp, ht, htdp, ode, alg, hk, hoc, hor, hac, har, -⟩ := semi_invariant fresh kw o ho
  have har := har halg
  let dae : MXExpr K := ⟨o.nx + alg.rows, 1, false && alg.validInput,
      fun env i j => if i < o.nx then env (fresh' "xdot") i j - ode.val env i j else alg.val env (i - o.nx) j⟩
  refine ⟨{ o with kind := .implicit (MXExpr.sym (fresh' "xdot") o.nx) dae }, ode, alg, _, dae, hk, ?_, rfl, rfl, rfl, rfl,
    rfl, rfl, rfl, rfl, rfl, by simp [dae, har], rfl, ?_⟩
  · have hsub : (MXExpr.sym (fresh' "xdot") o.nx : MXExpr K).sub ode =
        .ok ⟨o.nx, 1, false, fun env i j => env (fresh' "xdot") i j - ode.val env i j⟩ := by
      unfold MXExpr.sub
      rw [if_pos ⟨hor.symm, hoc.symm⟩]; rfl
    have hcat : MXExpr.vertcat2 (⟨o.nx, 1, false, fun env i j => env (fresh' "xdot") i j - ode.val env i j⟩ : MXExpr K) alg =
        .ok dae := by
      unfold MXExpr.vertcat2
      rw [if_pos hac.symm]
    unfold DaeObj.makeImplicit
    rw [hk]
    simp only [hsub, hcat, Except.bind, bind]
    classical
    rw [newImplicit_eq _ _ o.x _ dae rfl rfl rfl, if_pos]
    · rfl
    · refine ⟨⟨⟨_, rfl, hx⟩, ?_, ?_, ?_, ?_, ?_⟩, ⟨_, rfl, rfl, ?_⟩, ⟨_, rfl, rfl, ?_⟩⟩
      · rintro _ ⟨⟩; assumption
      · rintro _ ⟨⟩; assumption
      · rintro _ ⟨⟩; assumption
      · rintro _ ⟨⟩; assumption
      · rintro _ ⟨⟩; assumption
      · exact Nat.mul_one _
      · show (o.nx + alg.rows) * 1 = o.nz + o.nx
        omega
  · intro env
    simp only [ResidualZero, dae, Nat.lt_one_iff, forall_eq]
    constructor
    · intro h
      refine ⟨fun i hi => ?_, fun i hi => ?_⟩
      · have := h i (by omega)
        rw [if_pos hi] at this
        exact sub_eq_zero.mp this
      · have := h (o.nx + i) (by omega)
        rw [if_neg (by omega)] at this
        simpa using this
    · rintro ⟨h1, h2⟩ i hi
      split_ifs with h
      · exact sub_eq_zero.mpr (h1 i h)
      · exact h2 _ (by omega)

/-- **C33** On an implicit model `makeImplicit` is the identity. -/
theorem C33_implicit_identity (fresh fresh' : String → ℕ) (kw : DaeArgs K) (o : DaeObj K)
    (ho : DaeObj.newImplicit fresh kw = .ok o) : o.makeImplicit fresh' = .ok o := by
  have : ∃ xdot dae, o.kind = .implicit xdot dae := by
    unfold DaeObj.newImplicit at ho
    cases hb : DaeObj.newBase fresh kw with
    | error e => rw [hb] at ho; cases ho
    | ok b =>
      rw [hb] at ho
      simp only [Except.bind, bind] at ho
      cases hx : kw.xdot with
      | none => rw [hx] at ho; cases ho
      | some xdot =>
        rw [hx] at ho
        cases hd : kw.dae with
        | none => rw [hd] at ho; simp only at ho; split_ifs at ho
        | some dae =>
          rw [hd] at ho; simp only at ho
          split_ifs at ho
          cases ho
          exact ⟨_, _, rfl⟩
  obtain ⟨xdot, dae, h⟩ := this
  unfold DaeObj.makeImplicit
  rw [h]

/-- **C33 is false** for accepted models with algebraic states and omitted `alg`: `makeImplicit` raises ValueError. -/
theorem C33_refuted_missing_alg (fresh fresh' : String → ℕ) : ∃ (kw : DaeArgs ℚ) (o : DaeObj ℚ),
    DaeObj.newSemi fresh kw = .ok o ∧ o.makeImplicit fresh' = .error .value :=
  ⟨{ x := some (.sym 0 1), z := some (.sym 1 1), ode := some (.sym 0 1) }, _, rfl, rfl⟩

/-- Every accepted model with algebraic states and omitted `alg` behaves like that. -/
theorem C33_missing_alg_raises (fresh fresh' : String → ℕ) (kw : DaeArgs K) (o : DaeObj K)
    (ho : DaeObj.newSemi fresh kw = .ok o) (halg : kw.alg = none) (hz : 0 < o.nz) :
    o.makeImplicit fresh' = .error .value := by
  obtain ⟨hx, hzs, hu, hp, ht, htdp, ode, alg, hk, hoc, hor, hac, -, har⟩ := semi_invariant fresh kw o ho
  have har := har halg
  have hsub : (MXExpr.sym (fresh' "xdot") o.nx : MXExpr K).sub ode =
      .ok ⟨o.nx, 1, false, fun env i j => env (fresh' "xdot") i j - ode.val env i j⟩ := by
    unfold MXExpr.sub
    rw [if_pos ⟨hor.symm, hoc.symm⟩]; rfl
  unfold DaeObj.makeImplicit MXExpr.vertcat2
  rw [hk]
  simp only [hsub, Except.bind, bind]
  rw [if_pos hac.symm]
  simp only
  classical
  rw [newImplicit_eq _ _ o.x _ _ rfl rfl rfl, if_neg]
  rintro ⟨-, -, dae, hd, -, hn⟩
  cases hd
  have : (o.nx + alg.rows) * 1 = o.nz + o.nx := hn
  omega

/-- Non-vacuity: the demo model, with a value for which the residual vanishes and one for which it does not. -/
example (fresh fresh' : String → ℕ) (hf : fresh' "xdot" = 7) : ∃ o o' xdot dae,
    DaeObj.newSemi fresh demoArgs = .ok o ∧ o.makeImplicit fresh' = .ok o' ∧ o'.kind = .implicit xdot dae ∧
      ResidualZero dae (fun _ _ _ => 1) ∧
      ¬ ResidualZero dae (fun s _ _ => if s = 7 then 2 else 1) := by
  obtain ⟨o, ho⟩ := (C32_accepts fresh demoArgs).1.mpr demoArgs_wf
  obtain ⟨o', ode, alg, xdot, dae, hk, hi, hk', -, -, -, -, -, -, -, -, -, -, hr⟩ :=
    C33_makeImplicit_partial fresh fresh' demoArgs o ho (by simp [demoArgs])
  have hoe : DaeObj.newSemi fresh demoArgs = .ok _ := rfl
  rw [ho] at hoe
  cases hoe
  cases hk
  refine ⟨_, o', xdot, dae, ho, hi, hk', ?_, ?_⟩
  · rw [hr]
    refine ⟨fun i hi => ?_, fun i hi => ?_⟩ <;> simp [hf]
  · rw [hr, hf]
    rintro ⟨h, -⟩
    have := h 0 (Nat.zero_lt_two)
    norm_num at this

/-! ## C62: the implicit class -/

/-- **C62** `ImplicitDae(**kw)` succeeds exactly on well-formed arguments and keeps the supplied parts. -/
theorem C62_implicit_accepts (fresh : String → ℕ) (kw : DaeArgs K) :
    ((∃ o, DaeObj.newImplicit fresh kw = .ok o) ↔ WellFormedImplicit kw) ∧
    ∀ o, DaeObj.newImplicit fresh kw = .ok o → HasParts kw o (fresh "t") ∧
      ∃ xdot dae, o.kind = .implicit xdot dae ∧ kw.xdot = some xdot ∧ kw.dae = some dae := by
  classical
  cases hx : kw.x with
  | none =>
    have : DaeObj.newImplicit fresh kw = .error .key := by
      unfold DaeObj.newImplicit; rw [newBase_none fresh kw hx]; rfl
    rw [this]
    refine ⟨⟨(fun ⟨_, h⟩ => nomatch h), ?_⟩, fun _ h => nomatch h⟩
    rintro ⟨⟨⟨x, h, _⟩, -⟩, -⟩
    rw [hx] at h; cases h
  | some x =>
    cases ho : kw.xdot with
    | none =>
      have key : ∀ o, DaeObj.newImplicit fresh kw ≠ .ok o := by
        intro o h
        unfold DaeObj.newImplicit at h
        rw [newBase_eq fresh kw x hx, ho] at h
        split_ifs at h <;> cases h
      refine ⟨⟨by rintro ⟨o, h⟩; exact (key o h).elim, ?_⟩, fun o h => (key o h).elim⟩
      rintro ⟨_, ⟨o, h, _⟩, _⟩
      rw [ho] at h; cases h
    | some xdot =>
      cases hd : kw.dae with
      | none =>
        have key : ∀ o, DaeObj.newImplicit fresh kw ≠ .ok o := by
          intro o h
          unfold DaeObj.newImplicit at h
          rw [newBase_eq fresh kw x hx, ho, hd] at h
          by_cases hb : WellFormedBase kw
          · rw [if_pos hb] at h
            simp only [Except.bind, bind] at h
            split_ifs at h
          · rw [if_neg hb] at h; cases h
        refine ⟨⟨by rintro ⟨o, h⟩; exact (key o h).elim, ?_⟩, fun o h => (key o h).elim⟩
        rintro ⟨_, _, ⟨o, h, _⟩⟩
        rw [hd] at h; cases h
      | some dae =>
        rw [newImplicit_eq fresh kw x xdot dae hx ho hd]
        by_cases w : WellFormedImplicit kw
        · rw [if_pos w]
          refine ⟨⟨fun _ => w, fun _ => ⟨_, rfl⟩⟩, ?_⟩
          rintro o h
          cases h
          exact ⟨baseObj_hasParts fresh kw x hx _, xdot, dae, rfl, rfl, rfl⟩
        · rw [if_neg w]
          exact ⟨⟨(fun ⟨_, h⟩ => nomatch h), fun h => (w h).elim⟩, fun _ h => nomatch h⟩

/-- Non-vacuity, and a finding: `xdot` need not be symbolic (here it is not a valid input). -/
example (fresh : String → ℕ) : ∃ o : DaeObj ℚ, DaeObj.newImplicit fresh
    ({ x := some (.sym 0 2), xdot := some ⟨2, 1, false, fun _ _ _ => 0⟩, dae := some ⟨2, 1, false, fun env i _ => env 0 i 0⟩ } :
      DaeArgs ℚ) = .ok o :=
  ⟨_, rfl⟩

/-! ## C34 -/

/-- The elements of the parts one after the other. -/
def stackedVals (parts : List (MXExpr K)) (env : Env K) : List K := (parts.map fun e => e.vals env).flatten

theorem vals_length (e : MXExpr K) (env : Env K) : (e.vals env).length = e.numel := by
  simp [MXExpr.vals, MXExpr.numel]

theorem structMX_vals (l : List (MXExpr K)) (env : Env K) :
    (MXExpr.structMX l).vals env = stackedVals l env := by
  have hlen : (stackedVals l env).length = (l.map MXExpr.numel).sum := by
    unfold stackedVals
    rw [List.length_flatten]
    simp [List.map_map, Function.comp_def, vals_length]
  unfold MXExpr.vals MXExpr.structMX
  refine List.ext_getElem (by simp [hlen]) ?_
  intro i h1 h2
  simp only [List.length_map, List.length_range] at h1
  simp only [List.getElem_map, List.getElem_range]
  rw [Nat.mod_eq_of_lt (by omega)]
  simp only [nd]
  unfold stackedVals at h2 ⊢
  rw [List.getD_eq_getElem?_getD, List.getElem?_eq_getElem h2]
  rfl

theorem mapM_getattr (l : List (DaeObj K)) (name : String) (f : DaeObj K → MXExpr K)
    (h : ∀ m ∈ l, m.getattr name = .ok (f m)) : l.mapM (·.getattr name) = .ok (l.map f) := by
  induction l with
  | nil => rfl
  | cons a l ih =>
    rw [List.mapM_cons, h a (by simp), ih (fun m hm => h m (by simp [hm]))]
    rfl

/-- The right-hand side of a semi-explicit model. -/
def rhsOde (m : DaeObj K) : MXExpr K := match m.kind with | .semi ode _ => ode | _ => ⟨0, 0, false, fun _ _ _ => 0⟩
/-- The algebraic equations of a semi-explicit model. -/
def rhsAlg (m : DaeObj K) : MXExpr K := match m.kind with | .semi _ alg => alg | _ => ⟨0, 0, false, fun _ _ _ => 0⟩

/-- **C34** (partial, see `C34_refuted`).  For every non-empty list of accepted semi-explicit models `parallel` succeeds;
`x, z, u, p, quad` of the result are the stacked ones and the dimensions add up.  Missing: the result has no `ode` and no
`alg`. -/
theorem C34_parallel_partial (fresh : String → ℕ) (ms : List (DaeObj K)) (_hne : ms ≠ [])
    (hms : ∀ m ∈ ms, ∃ fr kw, DaeObj.newSemi fr kw = .ok m) :
    ∃ o, parallel fresh ms = .ok o ∧
      (∀ env, o.x.vals env = stackedVals (ms.map (·.x)) env ∧ o.z.vals env = stackedVals (ms.map (·.z)) env ∧
        o.u.vals env = stackedVals (ms.map (·.u)) env ∧ o.p.vals env = stackedVals (ms.map (·.p)) env ∧
        o.quad.vals env = stackedVals (ms.map (·.quad)) env) ∧
      o.nx = (ms.map (·.nx)).sum ∧ o.nz = (ms.map (·.nz)).sum ∧ o.nu = (ms.map (·.nu)).sum ∧
      o.np = (ms.map (·.np)).sum ∧ o.nq = (ms.map (·.nq)).sum ∧
      o.getattr "ode" = .error .attribute ∧ o.getattr "alg" = .error .attribute ∧
      o.t = MXExpr.sym (fresh "t") 1 ∧ o.ntdp = 0 := by
  have inv : ∀ m ∈ ms, SymColumn m.x ∧ SymColumn m.z ∧ SymColumn m.u ∧ m.p.validInput = true ∧
      m.getattr "ode" = .ok (rhsOde m) ∧ m.getattr "alg" = .ok (rhsAlg m) := by
    intro m hm
    obtain ⟨fr, kw, hk⟩ := hms m hm
    obtain ⟨hx, hz, hu, hp, -, -, ode, alg, hk, -⟩ := semi_invariant fr kw m hk
    refine ⟨hx, hz, hu, hp, ?_, ?_⟩ <;> simp [DaeObj.getattr, rhsOde, rhsAlg, hk]
  have hallv : ∀ f : DaeObj K → MXExpr K, (∀ m ∈ ms, (f m).validInput = true) →
      (MXExpr.structMX (ms.map f)).validInput = true := by
    intro f hf
    simp only [MXExpr.structMX, List.all_map, List.all_eq_true, Function.comp]
    exact hf
  have hnum : ∀ f : DaeObj K → MXExpr K, (MXExpr.structMX (ms.map f)).numel = (ms.map fun m => (f m).numel).sum := by
    intro f
    simp [MXExpr.numel, MXExpr.structMX, List.map_map, Function.comp_def]
  refine ⟨baseObj fresh
    { x := some (.structMX (ms.map (·.x))), z := some (.structMX (ms.map (·.z))), u := some (.structMX (ms.map (·.u))),
      p := some (.structMX (ms.map (·.p))), ode := some (.structMX (ms.map rhsOde)),
      alg := some (.structMX (ms.map rhsAlg)), quad := some (.structMX (ms.map (·.quad))) }
    (.structMX (ms.map fun m : DaeObj K => m.x)), ?_, ?_, hnum fun m => m.x, hnum fun m => m.z, hnum fun m => m.u,
    hnum fun m => m.p, hnum fun m => m.quad, rfl, rfl, rfl, rfl⟩
  · unfold parallel
    rw [mapM_getattr ms "x" (·.x) (fun _ _ => rfl), mapM_getattr ms "z" (·.z) (fun _ _ => rfl),
      mapM_getattr ms "u" (·.u) (fun _ _ => rfl), mapM_getattr ms "p" (·.p) (fun _ _ => rfl),
      mapM_getattr ms "ode" rhsOde (fun m hm => (inv m hm).2.2.2.2.1),
      mapM_getattr ms "alg" rhsAlg (fun m hm => (inv m hm).2.2.2.2.2),
      mapM_getattr ms "quad" (·.quad) (fun _ _ => rfl)]
    simp only [Except.bind, bind]
    classical
    rw [newBase_eq _ _ _ rfl, if_pos]
    refine ⟨⟨_, rfl, rfl, hallv _ fun m hm => (inv m hm).1.2⟩, ?_, ?_, ?_, ?_, ?_⟩
    · rintro _ ⟨⟩; exact ⟨rfl, hallv _ fun m hm => (inv m hm).2.1.2⟩
    · rintro _ ⟨⟩; exact ⟨rfl, hallv _ fun m hm => (inv m hm).2.2.1.2⟩
    · rintro _ ⟨⟩; exact hallv _ fun m hm => (inv m hm).2.2.2.1
    · rintro _ ⟨⟩
    · rintro _ ⟨⟩
  · intro env
    exact ⟨structMX_vals _ env, structMX_vals _ env, structMX_vals _ env, structMX_vals _ env, structMX_vals _ env⟩

/-- The full claim C34 about one list of models: the result also has the stacked right-hand sides. -/
def C34Full (fresh : String → ℕ) (ms : List (DaeObj K)) : Prop :=
  ∃ o ode alg, parallel fresh ms = .ok o ∧ o.getattr "ode" = .ok ode ∧ o.getattr "alg" = .ok alg ∧
    ∀ env, ode.vals env = stackedVals (ms.map rhsOde) env ∧ alg.vals env = stackedVals (ms.map rhsAlg) env

/-- **C34 is false**, for every list of models: the result is a plain `Dae` and has no `ode`. -/
theorem C34_refuted (fresh : String → ℕ) (ms : List (DaeObj K)) (hne : ms ≠ [])
    (hms : ∀ m ∈ ms, ∃ fr kw, DaeObj.newSemi fr kw = .ok m) : ¬ C34Full fresh ms := by
  rintro ⟨o, ode, alg, h, h1, -⟩
  obtain ⟨o', h', -, -, -, -, -, -, h2, -⟩ := C34_parallel_partial fresh ms hne hms
  rw [h] at h'; cases h'
  rw [h1] at h2; cases h2

/-- **C34** Models in implicit form are rejected with AttributeError. -/
theorem C34_implicit_raises (fresh : String → ℕ) (ms : List (DaeObj K)) (m : DaeObj K) (hm : m ∈ ms)
    (hk : ∃ xdot dae, m.kind = .implicit xdot dae) : ∃ e, parallel fresh ms = .error e := by
  have hno : ∀ (l : List (DaeObj K)), m ∈ l → ∃ e, l.mapM (·.getattr "ode") = .error e := by
    intro l hl
    induction l with
    | nil => cases hl
    | cons a l ih =>
      rw [List.mapM_cons]
      cases ha : a.getattr "ode" with
      | error e => exact ⟨e, rfl⟩
      | ok v =>
        rcases List.mem_cons.mp hl with rfl | hl
        · obtain ⟨xd, d, hk⟩ := hk
          simp [DaeObj.getattr, hk] at ha
        · obtain ⟨e, he⟩ := ih hl
          exact ⟨e, by rw [he]; rfl⟩
  obtain ⟨e, he⟩ := hno ms hm
  refine ⟨e, ?_⟩
  unfold parallel
  rw [mapM_getattr ms "x" (·.x) (fun _ _ => rfl), mapM_getattr ms "z" (·.z) (fun _ _ => rfl),
      mapM_getattr ms "u" (·.u) (fun _ _ => rfl), mapM_getattr ms "p" (·.p) (fun _ _ => rfl), he]
  rfl

/-- Non-vacuity: two copies of the demo model. -/
example (fresh : String → ℕ) : ∃ m o, DaeObj.newSemi fresh demoArgs = .ok m ∧ parallel fresh [m, m] = .ok o ∧
    o.nx = 4 ∧ o.getattr "ode" = .error .attribute := by
  obtain ⟨m, hm⟩ := (C32_accepts fresh demoArgs).1.mpr demoArgs_wf
  obtain ⟨o, h, -, h1, -, -, -, -, h2, -⟩ := C34_parallel_partial fresh [m, m] (by simp) (by
    intro m' hm'
    simp only [List.mem_cons, List.not_mem_nil, or_false, or_self] at hm'
    exact ⟨fresh, demoArgs, hm' ▸ hm⟩)
  refine ⟨m, o, hm, h, ?_, h2⟩
  rw [h1]
  have : DaeObj.newSemi fresh demoArgs = .ok _ := rfl
  rw [hm] at this
  cases this
  rfl

/-- C33: the model of the previous example is its own implicit form. -/
example (fresh fresh' : String → ℕ) : ∃ o : DaeObj ℚ, DaeObj.newImplicit fresh
    ({ x := some (.sym 0 2), xdot := some ⟨2, 1, false, fun _ _ _ => 0⟩, dae := some ⟨2, 1, false, fun env i _ => env 0 i 0⟩ } :
      DaeArgs ℚ) = .ok o ∧ o.makeImplicit fresh' = .ok o := by
  have h : ∃ o : DaeObj ℚ, DaeObj.newImplicit fresh
    ({ x := some (.sym 0 2), xdot := some ⟨2, 1, false, fun _ _ _ => 0⟩, dae := some ⟨2, 1, false, fun env i _ => env 0 i 0⟩ } :
      DaeArgs ℚ) = .ok o := ⟨_, rfl⟩
  obtain ⟨o, ho⟩ := h
  exact ⟨o, ho, C33_implicit_identity fresh fresh' _ o ho⟩

end CE
