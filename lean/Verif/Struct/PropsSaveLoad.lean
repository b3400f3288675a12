import Verif.Struct.SaveLoad
import Verif.Struct.PropsPickleAll

/-! # Property C145: saving structs to files -/

namespace CE.St

variable {V : Type}

/-- `file` of Python 2, for files that can be written: mode "wb" makes an empty file, mode "rb" opens an existing one. -/
structure IsFile (f : Opener V) : Prop where
  wb : ∀ n fs, f n "wb" fs = .ok (Function.update fs n (some none))
  rb : ∀ n fs c, fs n = some c → f n "rb" fs = .ok fs

theorem resolve_file {F : Type} (own : String → F) (casadi builtin : String → Option F) : resolve own casadi builtin "file" =
    match casadi "file" with
    | some f => .ok f
    | none => match builtin "file" with
      | some f => .ok f
      | none => .error .name := by
  rw [resolve, if_neg (by decide)]
  cases casadi "file"
  · cases builtin "file" <;> rfl
  · rfl

/-- **C145** (false of the code) Unless CasADi or the interpreter provide a name `file`, `save` raises NameError for every `CasadiStructure`
and DM struct and every name of a file, and AttributeError for every object of another class; nothing is written, no state dictionary
changes, and no sequence of calls makes a difference. -/
theorem C145_save (own : String → Opener V) (casadi builtin : String → Option (Opener V)) (hc : casadi "file" = none)
    (hb : builtin "file" = none) (l : List (PObj V × String)) (o : PObj V) (n : String) (w : World V) :
    o.save (resolve own casadi builtin) n (saveAll (resolve own casadi builtin) l w) =
      (.error (match o.kind with | .layout | .dm _ => .name | _ => .attribute), w) := by
  have hr : resolve own casadi builtin "file" = .error .name := by rw [resolve_file, hc, hb]
  have one : ∀ (o : PObj V) n w, o.save (resolve own casadi builtin) n w =
      (.error (match o.kind with | .layout | .dm _ => .name | _ => .attribute), w) := by
    intro o n w
    rw [PObj.save, hr]
    cases o.kind <;> rfl
  have all : saveAll (resolve own casadi builtin) l w = w := by
    induction l with
    | nil => rfl
    | cons x l ih => rw [saveAll, one, ih]
  rw [all, one]

/-- **C145** (false of the code) Unless CasADi or the interpreter provide a name `file`, `struct_load` raises NameError, also for files
with a valid pickle. -/
theorem C145_load [Zero V] (own : String → Opener V) (casadi builtin : String → Option (Opener V)) (hc : casadi "file" = none)
    (hb : builtin "file" = none) (fresh : ℕ → V) (n : String) (w : World V) :
    structLoad (resolve own casadi builtin) fresh n w = (.error .name, w) := by
  rw [structLoad, resolve_file, hc, hb]

/-- A call of `save` with `file` of Python 2. -/
theorem save_eq {names : String → Except PyErr (Opener V)} {f : Opener V} (hf : names "file" = .ok f) (law : IsFile f) (o : PObj V)
    (n : String) (w : World V) (hs : o.kind.hasSave = true) : (o.save names n w).1 = .ok () ∧
    (o.save names n w).2.files = Function.update w.files n (some (some ⟨dumpObjs [o] w.init [], o⟩)) := by
  rw [PObj.save, if_pos hs, hf]
  simp only
  rw [law.wb]
  simp

/-- Calls of `save` do not change the files of other names. -/
theorem saveAll_other {names : String → Except PyErr (Opener V)} {f : Opener V} (hf : names "file" = .ok f) (law : IsFile f)
    (l : List (PObj V × String)) (n : String) (hn : ∀ x ∈ l, x.2 ≠ n) (w : World V) : (saveAll names l w).files n = w.files n := by
  induction l generalizing w with
  | nil => rfl
  | cons x l ih =>
    rw [saveAll, ih fun y hy => hn y (List.mem_cons_of_mem _ hy)]
    by_cases hs : x.1.kind.hasSave = true
    · rw [(save_eq hf law x.1 x.2 w hs).2, Function.update_of_ne (hn x List.mem_cons_self).symm]
    · rw [PObj.save, if_neg hs]

theorem saveAll_append (names : String → Except PyErr (Opener V)) (l l' : List (PObj V × String)) (w : World V) :
    saveAll names (l ++ l') w = saveAll names l' (saveAll names l w) := by
  induction l generalizing w with
  | nil => rfl
  | cons x l ih => exact ih _

variable [Zero V] [Add V] [Sub V]

/-- **C145** (what holds) If CasADi or the interpreter provided `file` as it is in Python 2: after any sequence of calls of `save`, by objects
of any classes that may share structs, and for any earlier pickling, `struct_load` of a file gives the object saved last under this name,
with its layout and, for a DM struct, its data.  (So the defect of C56 does not show in files: each of them is written from an own pickle.)
Missing: the code as it is, with Python 3 (`C145_save`, `C145_load`), and the classes without `save`. -/
theorem C145_roundtrip_partial (names : String → Except PyErr (Opener V)) (f : Opener V) (hf : names "file" = .ok f) (law : IsFile f)
    (before after : List (PObj V × String)) (o : PObj V) (n : String) (c : CS) (hv : o.Valid c)
    (hk : o.kind = .layout ∨ ∃ m, o.kind = .dm m) (hlast : ∀ x ∈ after, x.2 ≠ n) (w : World V) (fresh : ℕ → V) :
    ∃ r, structLoad names fresh n (saveAll names (before ++ (o, n) :: after) w) =
        (.ok r, saveAll names (before ++ (o, n) :: after) w) ∧ Restored fresh c o.kind r := by
  have hs : o.kind.hasSave = true := by
    rcases hk with h | ⟨m, h⟩ <;> rw [h] <;> rfl
  have hm : o.kind ≠ .mutable := by
    rcases hk with h | ⟨m, h⟩ <;> rw [h] <;> simp
  set w1 := saveAll names before w with hw1
  obtain ⟨r, h1, h2⟩ := C90_single (fun _ => fresh) o c hv w1.init hm
  have hl : loadObj fresh (dumpObjs [o] w1.init []) o = .ok r := by
    rw [pickleObjs] at h1
    simp only [List.zipIdx_cons, List.zipIdx_nil, List.mapM_cons, List.mapM_nil, bind, Except.bind, pure, Except.pure] at h1
    split at h1
    · cases h1
    · rename_i v hv'
      rw [hv']
      injection h1 with h1
      rw [List.cons.inj h1 |>.1]
  refine ⟨r, ?_, h2⟩
  have hfile : (saveAll names (before ++ (o, n) :: after) w).files n = some (some ⟨dumpObjs [o] w1.init [], o⟩) := by
    rw [saveAll_append, ← hw1, saveAll, saveAll_other hf law after n hlast, (save_eq hf law o n w1 hs).2, Function.update_self]
  rw [structLoad, hf]
  simp only
  rw [law.rb n _ _ hfile]
  simp only [hfile, hl]

/-- **C145** (counterexample) A valid DM struct that `struct_load` does not give back after `save`, whatever the file. -/
theorem C145_refuted : ∃ (o : PObj ℤ) (c : CS), o.Valid c ∧ ∀ (own : String → Opener ℤ) (casadi builtin : String → Option (Opener ℤ)),
    casadi "file" = none → builtin "file" = none → ∀ fresh n w,
      (structLoad (resolve own casadi builtin) fresh n (o.save (resolve own casadi builtin) n w).2).1 = .error .name := by
  obtain ⟨c, h1, h2, h3⟩ := exPickle_valid 1
  refine ⟨⟨exPickle, .dm [1]⟩, c, ⟨h1, h2, fun m hm => by cases hm; exact h3⟩, fun own casadi builtin hc hb fresh n w => ?_⟩
  rw [C145_load own casadi builtin hc hb]

/-! ## Non-vacuity -/

/-- `file` of Python 2. -/
def file2 : Opener V := fun n mode fs =>
  if mode = "wb" then .ok (Function.update fs n (some none))
  else match fs n with
    | some _ => .ok fs
    | none => .error .generic

theorem file2_law {V : Type} : IsFile (file2 (V := V)) :=
  ⟨fun n fs => by rw [file2, if_pos rfl], fun n fs c h => by rw [file2, if_neg (by decide), h]⟩

/-- `vec` is defined in the module (structure3.py:98) and replaces the function of CasADi; `print` is a builtin. -/
example : resolve (fun n => n) (fun n => some ("casadi." ++ n)) (fun _ => none) "vec" = .ok "vec" ∧
    resolve (fun n => n) (fun _ => none) (fun n => some ("builtins." ++ n)) "print" = .ok "builtins.print" := by decide

/-- Python 3: a DM struct cannot be saved, and no file appears. -/
example (own : String → Opener ℤ) : (⟨exPickle, .dm [1]⟩ : PObj ℤ).save (resolve own (fun _ => none) fun n => if n = "open" then some file2 else none)
    "s.dat" ⟨fun _ => none, []⟩ = (.error .name, ⟨fun _ => none, []⟩) :=
  C145_save own _ _ rfl rfl [] ⟨exPickle, .dm [1]⟩ "s.dat" _

/-- With `file`, two DM structs of the same struct are saved and loaded with different data, unlike in one pickle (C56). -/
example (own : String → Opener ℤ) (w : World ℤ) :
    let names := resolve own (fun _ => none) fun n => if n = "file" then some file2 else none
    let w' := saveAll names [(⟨exPickle, .dm [1]⟩, "a"), (⟨exPickle, .dm [2]⟩, "b")] w
    ∃ r r' : Obj ℤ, (structLoad names (fun _ => 0) "a" w').1 = .ok (.obj r) ∧ (structLoad names (fun _ => 0) "b" w').1 = .ok (.obj r') ∧
      r.master = [1] ∧ r'.master = [2] := by
  intro names w'
  have hn : names "file" = .ok file2 := by
    simp only [names]
    rw [resolve_file]
    rfl
  obtain ⟨c, h1, h2, h3⟩ := exPickle_valid 1
  obtain ⟨c', h1', h2', h3'⟩ := exPickle_valid 2
  obtain ⟨r, hr, hr'⟩ := C145_roundtrip_partial names file2 hn file2_law [] [(⟨exPickle, .dm [2]⟩, "b")] ⟨exPickle, .dm [1]⟩ "a" c
    ⟨h1, h2, fun m hm => by cases hm; exact h3⟩ (.inr ⟨_, rfl⟩) (by simp) w fun _ => 0
  obtain ⟨q, hq, hq'⟩ := C145_roundtrip_partial names file2 hn file2_law [(⟨exPickle, .dm [1]⟩, "a")] [] ⟨exPickle, .dm [2]⟩ "b" c'
    ⟨h1', h2', fun m hm => by cases hm; exact h3'⟩ (.inr ⟨_, rfl⟩) (by simp) w fun _ => 0
  match r, q, hr', hq' with
  | .obj r, .obj q, hr', hq' => exact ⟨r, q, congrArg Prod.fst hr, congrArg Prod.fst hq, hr'.cat, hq'.cat⟩

end CE.St
