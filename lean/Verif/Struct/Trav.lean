import Verif.Struct.Layout

/-!
# Traversal by power index, dispatchers, reading and writing (structure3.py:150-160, 198-273, 338-441, 583-694, 774-790)

`traverseByPowerIndex` is modelled for an arbitrary dispatcher.  Every exception inside a traversal is re-raised as
`Exception` (lines 272-273, 428-429); the model raises `PyErr.generic` at once, except where another exception is mapped at
the end (`Struct.traverse`).
-/

namespace CE.St

/-- `payloadUnpack(payload, i)` (structure3.py:150-160); `payload[i]` with a negative `i` counts from the end. -/
def payloadUnpack {V : Type} (pay : Pay V) (i : Key) : Except PyErr (Pay V) :=
  match i with
  | .str _ => .error .generic
  | .int i => match pay with
    | .list l => if i ≥ l.length then .error .generic else pyIndex l i
    | .rep e => .ok e
    | p => .ok p

/-- A dispatcher (structure3.py:432-441): the call, and the treatment of callables.  `inner` tells whether the dispatcher is
`callableInner()` of the original one; the callable itself is applied in `outer`. -/
structure Disp (σ V F R : Type) where
  call : (inner : Bool) → Pay V → CIdx → (extraIndex : Option (List (PIdx F))) → (entry : Option Prim) → M σ R
  outer : (inner : Bool) → F → Pay V → CIdx → Tree R → M σ (Tree R)

section
variable {σ V F R : Type}

/-- The type of a traversal: remaining power index, `inner` flag, canonical index so far, payload. -/
abbrev Trav (σ V F R : Type) := List (PIdx F) → Bool → CIdx → Pay V → M σ (Tree R)

/-- Exceptions of pure helpers inside a traversal. -/
def ex {α : Type} (x : Except PyErr α) : M σ α := M.lift x

/-- `StructEntry.traverseByPowerIndex` (structure3.py:198-273) from the given `dims` on; `leaf` is the part for exhausted
`dims` (lines 211-223). -/
def goEntry (d : Disp σ V F R) (leaf : Trav σ V F R) : List ℕ → Trav σ V F R
  | [], pi, inner, c, pay => leaf pi inner c pay
  | s :: ds, pi, inner, c, pay =>
    -- lines 202-210: pending slices
    match pi with
    | [] => M.bind (ex (sliceList none none none s)) fun is =>
        M.bind (M.forEach is fun i =>
          M.bind (ex (payloadUnpack pay (.int i))) fun pay' =>
            goEntry d leaf ds (ds.map fun _ => .all) inner (c ++ [.int (canonical i s)]) pay') fun r => M.pure (.list r)
    | p :: rest => match p with
      | .slice a b st => M.bind (ex (sliceList a b st s)) fun is =>
          M.bind (M.forEach is fun i =>
            M.bind (ex (payloadUnpack pay (.int i))) fun pay' =>
              goEntry d leaf ds rest inner (c ++ [.int (canonical i s)]) pay') fun r => M.pure (.list r)
      | .int i => goEntry d leaf ds rest inner (c ++ [.int (canonical i s)]) pay
      | .list l => M.bind (M.forEach l fun i =>
            M.bind (ex (payloadUnpack pay i)) fun pay' => match i with
              | .str _ => M.throw .generic
              | .int i => goEntry d leaf ds rest inner (c ++ [.int (canonical i s)]) pay') fun r => M.pure (.list r)
      | .nesteddict => M.bind (M.forEach (List.range s) fun i : ℕ =>
            M.bind (ex (payloadUnpack pay (.int i))) fun pay' =>
              goEntry d leaf ds [.nesteddict] inner (c ++ [.int (canonical i s)]) pay') fun r => M.pure (.list r)
      | .fn f => M.bind (goEntry d leaf (s :: ds) rest true c pay) fun r => d.outer inner f pay c r
      | _ => M.throw .generic
termination_by ds pi => (ds.length, pi.length)
decreasing_by
  all_goals simp_wf
  all_goals first
    | exact Prod.Lex.left _ _ (Nat.lt_succ_self _)
    | exact Prod.Lex.right _ (Nat.lt_succ_self _)

/-- `Structure.traverseByPowerIndex` (structure3.py:338-429), given the traversals of the entries (`dict`, in order of
definition) and the `keys`. -/
def goStruct (d : Disp σ V F R) (keys : List String) (dict : List (String × Trav σ V F R)) : Trav σ V F R
  | [], inner, c, pay => M.bind (d.call inner pay c none none) fun r => M.pure (.leaf r)
  | p :: rest, inner, c, pay =>
    let entry (k : String) : Trav σ V F R := fun pi inner c pay =>
      match dict.reverse.find? (·.1 = k) with
      | some t => t.2 pi inner c pay
      | none => M.throw .generic
    match p with
    | .str k => entry k rest inner (c ++ [.str k]) pay
    | .ellipsis => M.bind (M.forEach keys.zipIdx fun ki =>
          M.bind (ex (payloadUnpack pay (.int ki.2))) fun pay' => entry ki.1 rest inner (c ++ [.str ki.1]) pay')
        fun r => M.pure (.list r)
    | .dict => match pay with
      | .dict items => M.bind (M.forEach items fun kv =>
            M.bind (entry kv.1 rest inner (c ++ [.str kv.1]) kv.2) fun r => M.pure (kv.1, r)) fun r => M.pure (.dict r)
      | pay => M.bind (M.forEach dict fun kt =>
            M.bind (kt.2 rest inner (c ++ [.str kt.1]) pay) fun r => M.pure (kt.1, r)) fun r => M.pure (.dict r)
    | .nesteddict => match pay with
      | .dict items => M.bind (M.forEach items fun kv =>
            M.bind (entry kv.1 [.nesteddict] inner (c ++ [.str kv.1]) kv.2) fun r => M.pure (kv.1, r))
              fun r => M.pure (.dict r)
      | pay => M.bind (M.forEach dict fun kt =>
            M.bind (kt.2 [.nesteddict] inner (c ++ [.str kt.1]) pay) fun r => M.pure (kt.1, r)) fun r => M.pure (.dict r)
    | .set ks => match pay with
      | .dict items => M.bind (M.forEach (items.filter fun kv => kv.1 ∈ ks) fun kv =>
            M.bind (entry kv.1 rest inner (c ++ [.str kv.1]) kv.2) fun r => M.pure (kv.1, r)) fun r => M.pure (.dict r)
      | pay => M.bind (M.forEach ks fun k =>
            M.bind (entry k rest inner (c ++ [.str k]) pay) fun r => M.pure (k, r)) fun r => M.pure (.dict r)
    | .list l => M.bind (M.forEach l.zipIdx fun si =>
          M.bind (ex (payloadUnpack pay (.int si.2))) fun pay' => goStruct d keys dict rest inner (c ++ [si.1]) pay')
        fun r => M.pure (.list r)
    | .fn f => M.bind (goStruct d keys dict rest true c pay) fun r => d.outer inner f pay c r
    | _ => M.throw .generic

mutual
/-- The part of `StructEntry.traverseByPowerIndex` for exhausted dims (structure3.py:211-223). -/
def Entry.leafTrav (d : Disp σ V F R) : Entry → Trav σ V F R
  | .prim _ _ p => fun pi inner c pay =>
    M.bind (d.call inner pay c (if pi.isEmpty then none else some pi) (some p)) fun r => M.pure (.leaf r)
  | .nested _ _ es order => fun pi inner c pay =>
    match pi with
    | [] => M.bind (d.call inner pay c none none) fun r => M.pure (.leaf r)
    | _ :: _ => goStruct d (order.flatMap OrderItem.names) (travTable d es) pi inner c pay
/-- The traversals of all entries. -/
def travTable (d : Disp σ V F R) : List Entry → List (String × Trav σ V F R)
  | [] => []
  | e :: es => (e.name, goEntry d (Entry.leafTrav d e) e.dims) :: travTable d es
end

/-- `Structure.traverseByPowerIndex` (structure3.py:338-429) -/
def Struct.traverse (s : Struct) (d : Disp σ V F R) (pi : List (PIdx F)) (pay : Pay V) : M σ (Tree R) := fun st =>
  match goStruct d s.keys (travTable d s.entries) pi false [] pay st with
  | (.ok r, st') => (.ok r, st')
  | (.error _, st') => (.error .generic, st')

end

/-! ## Indexing of index matrices -/

/-- CasADi's `Slice` applied to a length: like Python's slice, but a stop beyond the length and a start before the beginning
raise. -/
def csSlice (start stop step : Option ℤ) (n : ℕ) : Except PyErr (List ℤ) :=
  let c := step.getD 1
  if c = 0 then .error .runtime
  else
    let a : ℤ := match start with
      | none => if c < 0 then n - 1 else 0
      | some v => if v < 0 then v + n else v
    let b : ℤ := match stop with
      | none => if c < 0 then -1 else n
      | some v => if v < 0 then v + n else v
    if b > n ∨ a < 0 then .error .runtime
    else
      let len : ℤ := if c < 0 then (if b < a then (a - b - 1) / (-c) + 1 else 0)
        else (if a < b then (b - a - 1) / c + 1 else 0)
      .ok ((List.range len.toNat).map fun k : ℕ => a + c * k)

/-- Positions in `0..n-1` from integers in `-n..n-1`. -/
def normIdx (n : ℕ) (l : List ℤ) : Except PyErr (List ℕ) :=
  l.mapM fun i => if -(n : ℤ) ≤ i ∧ i < n then .ok (canonical i n).toNat else .error .runtime

/-- The integers of a list index. -/
def Key.toInt : Key → Except PyErr ℤ
  | .int i => .ok i
  | .str _ => .error .runtime

/-- The positions in `0..n-1` selected by one index of a matrix: an integer, a slice, a non-empty list of integers or a dense
vector; others raise. -/
def selIdx {F : Type} (n : ℕ) : PIdx F → Except PyErr (List ℕ)
  | .int i => normIdx n [i]
  | .slice a b st => (csSlice a b st n).bind (normIdx n)
  | .list l => if l = [] then .error .runtime else (l.mapM Key.toInt).bind (normIdx n)
  | .mat m => if m.sp.isDense ∧ (m.sp.rows = 1 ∨ m.sp.cols = 1) then normIdx n m.data else .error .runtime
  | _ => .error .runtime

/-- The submatrix of an index matrix whose element `(p, q)`, for `p` below `r` and `q` below `c`, is element `f (p, q)`. -/
def subMat (i : IMat) (r c : ℕ) (f : ℕ × ℕ → ℕ × ℕ) : IMat :=
  let pos := (Sparsity.positions r c).filterMap fun p => (i.nzAt (f p)).map fun v => (p, v)
  ⟨⟨r, c, pos.map (·.1)⟩, pos.map (·.2)⟩

/-- The same for a function that is not defined for all positions: the others are structural zeros. -/
def partMat (i : IMat) (r c : ℕ) (f : ℕ × ℕ → Option (ℕ × ℕ)) : IMat :=
  let pos := (Sparsity.positions r c).filterMap fun p => ((f p).bind i.nzAt).map fun v => (p, v)
  ⟨⟨r, c, pos.map (·.1)⟩, pos.map (·.2)⟩

/-- `i[m]` for an integer matrix `m` (CasADi): the elements with the numbers in `m`, in column-major order, with the pattern of `m`; if
`i` is a column and `m` a row, or the other way round, with the transposed pattern; without the elements that `i` does not have. -/
def getMat (i : IMat) (m : SMat ℤ) : Except PyErr IMat := do
  let l ← normIdx (i.sp.rows * i.sp.cols) m.data
  let sp := if (i.sp.cols = 1 ∧ m.sp.rows = 1) ∨ (i.sp.rows = 1 ∧ m.sp.cols = 1) then m.sp.T else m.sp
  pure (partMat i sp.rows sp.cols fun p => (SMat.nzAt ⟨sp, l⟩ p).map fun k => (k % i.sp.rows, k / i.sp.rows))

/-- `i[a]` for an integer, a slice or a list: the elements in column-major order; the result is a column, or a row if `i` is a row. -/
def getSel {F : Type} (i : IMat) (a : PIdx F) : Except PyErr IMat := do
  let l ← selIdx (i.sp.rows * i.sp.cols) a
  let el (k : ℕ) : ℕ × ℕ := (l.getD k 0 % i.sp.rows, l.getD k 0 / i.sp.rows)
  if i.sp.rows = 1 then pure (subMat i 1 l.length fun p => el p.2)
  else pure (subMat i l.length 1 fun p => el p.1)

/-- `i[a]` -/
def getLin {F : Type} (i : IMat) : PIdx F → Except PyErr IMat
  | .mat m => getMat i m
  | a => getSel i a

/-- `i[a, b]` -/
def getRC {F : Type} (i : IMat) (a b : PIdx F) : Except PyErr IMat := do
  let la ← selIdx i.sp.rows a
  let lb ← selIdx i.sp.cols b
  pure (subMat i la.length lb.length fun p => (la.getD p.1 0, lb.getD p.2 0))

/-- `delegation(extraIndex, entry, k)` (structure3.py:662-671).  Simplification: if `index[arg]` selects several elements, the model
raises; CasADi may accept a list of matrices. -/
def delegation {F : Type} (x : PIdx F) (entry : Option Prim) (k : ℕ) : Except PyErr (PIdx F) :=
  let go (sel : ShapeFns → Except PyErr (PIdx F)) : Except PyErr (PIdx F) :=
    match entry with
    | none => .error .generic
    | some p => match p.ss with
      | none => .error .generic
      | some l => match l[k]? with
        | none => .error .index
        | some none => .error .generic
        | some (some c) => sel c
  let flat (arg : List (PIdx Empty)) (c : ShapeFns) : Except PyErr (PIdx F) := (c.f arg).map fun is => .list (is.map .int)
  match x with
  | .str s => go (flat [.str s])
  | .list l => if l ≠ [] ∧ l.all Key.isStr then go (flat [.list l]) else .ok (.list l)
  | .indexf arg => go (flat (arg.map .ofKey))
  | .index arg => go fun c => (c.i (arg.map .ofKey)).bind fun
    | .leaf i => .ok (.mat ⟨i.sp, i.data.map fun k : ℕ => (k : ℤ)⟩)
    | _ => .error .generic
  | x => .ok x

/-- `performExtraIndex(i, extraIndex, entry, flip)` (structure3.py:673-694).  `onIdx` applies a callable to an index
matrix. -/
def performExtraIndex {F : Type} (onIdx : F → Tree IMat → Except PyErr IMat) (i : IMat) (entry : Option Prim) (flip : Bool) :
    List (PIdx F) → Except PyErr IMat
  | [] => .ok i
  | .fn f :: rest => (performExtraIndex onIdx i entry flip rest).bind fun r => onIdx f (.leaf r)
  | .nesteddict :: _ => .ok i
  | [a] => (delegation a entry 0).bind fun a => getLin i a
  | [a, b] => (delegation a entry 0).bind fun a => (delegation b entry 1).bind fun b =>
      if flip then getRC i b a else getRC i a b
  | _ => .error .generic

/-! ## Access to `master` -/

section
variable {V : Type}

/-- An element of `master`. -/
def masterAt (master : List V) (k : ℕ) : Except PyErr V :=
  match master[k]? with
  | some v => .ok v
  | none => .error .runtime

/-- `correct_vector_indexing(master, i)` (structure3.py:105-106): the elements of the dense column `master` at the positions
in `i`, with the pattern of `i`. -/
def gather (master : List V) (i : IMat) : Except PyErr (SMat V) :=
  (i.data.mapM (masterAt master)).map fun d => ⟨i.sp, d⟩

/-- Write values to positions one after another. -/
def writeAll : List V → List (ℕ × V) → List V
  | m, [] => m
  | m, (k, v) :: l => writeAll (m.set k v) l

/-- `master[i] = m` (CasADi): equal shapes: the nonzeros of `i` get the values of `m` (zero where `m` has no entry); a
scalar is written everywhere; a vector may be transposed; RuntimeError otherwise.  Simplification: an element that CasADi
makes structurally zero has the value 0 here. -/
def assign [Zero V] (master : List V) (i : IMat) (m : SMat V) : Except PyErr (List V) :=
  if i.data.any (fun k => k ≥ master.length) then .error .runtime
  else if i.sp.rows = m.sp.rows ∧ i.sp.cols = m.sp.cols then
    .ok (writeAll master (i.data.zip (i.sp.nz.map m.at')))
  else if m.isScalar then .ok (writeAll master (i.data.map fun k => (k, m.at' (0, 0))))
  else if i.sp.rows = m.sp.cols ∧ i.sp.cols = m.sp.rows ∧ min m.sp.rows m.sp.cols = 1 then
    .ok (writeAll master (i.data.zip (i.sp.nz.map m.T.at')))
  else .error .runtime

/-- `triu2symm(r)`: `r + r.T - diag(diag(r))` for an upper triangular square matrix. -/
def triu2symm [Zero V] [Add V] [Sub V] (r : SMat V) : Except PyErr (SMat V) :=
  if r.sp.rows ≠ r.sp.cols ∨ r.sp.nz.any (fun p => p.1 > p.2) then .error .runtime
  else
    .ok (SMat.fill (Sparsity.ofPred r.sp.rows r.sp.cols fun p => p ∈ r.sp.nz ∨ (p.2, p.1) ∈ r.sp.nz) fun p =>
      if p.1 = p.2 then r.at' p + r.at' p - r.at' p
      else if p.1 < p.2 then r.at' p else r.at' (p.2, p.1))

/-- A number in a list payload. -/
def Pay.toNum : Pay V → Except PyErr V
  | .num v => .ok v
  | _ => .error .runtime

/-- A row in a list payload. -/
def Pay.toRow : Pay V → Except PyErr (List V)
  | .list l => l.mapM Pay.toNum
  | _ => .error .runtime

/-- The dense matrix with the given rows, which must have the length of the first one. -/
def ofRows (rows : List (List V)) : Except PyErr (SMat V) :=
  let n := (rows.headD []).length
  if rows.all fun r => r.length = n then
    .ok ⟨.dense rows.length n, (Sparsity.positions rows.length n).filterMap fun p => (rows[p.1]?).bind (·[p.2]?)⟩
  else .error .runtime

/-- `mtype(payload)` for the payload of a single element: a matrix, a number, a list of numbers (a column), a list of rows.
Simplification: lists that contain matrices raise. -/
def Pay.toMat : Pay V → Except PyErr (SMat V)
  | .mat m => .ok m
  | .num v => .ok (.scalar v)
  | .list l => match l.mapM Pay.toNum with
    | .ok vs => .ok (.col vs)
    | .error _ => (l.mapM Pay.toRow).bind ofRows
  | _ => .error .runtime

end

/-! ## Dispatchers -/

section
variable {V : Type}

/-- `onIdx` of a callable. -/
def applyIdx (f : PyFn V) (t : Tree IMat) : Except PyErr IMat := f.onIdx t

/-- `IMDispatcher` (structure3.py:785-790) -/
def imCall {F : Type} (onIdx : F → Tree IMat → Except PyErr IMat) (map : List (CIdx × IMat)) (c : CIdx)
    (extra : Option (List (PIdx F))) (entry : Option Prim) : Except PyErr IMat :=
  match dictGet map c with
  | none => .error .generic
  | some m => performExtraIndex onIdx m entry false (extra.getD [])

/-- `FlatIndexDispatcher` (structure3.py:774-783) -/
def flatCall {F : Type} (onIdx : F → Tree IMat → Except PyErr IMat) (map : List (CIdx × IMat)) (c : CIdx)
    (extra : Option (List (PIdx F))) (entry : Option Prim) : Except PyErr (List ℤ) :=
  match dictGet map c with
  | none => .error .generic
  | some m => (performExtraIndex onIdx m entry false (extra.getD [])).bind fun r =>
      if r.sp.isDense then .ok (r.data.map fun k : ℕ => (k : ℤ)) else .error .assertion

/-- `GetterDispatcher` (structure3.py:583-609); `prio` is `priority_object_map`. -/
def getCall [Zero V] [Add V] [Sub V] (map : List (CIdx × IMat)) (prio : List (CIdx × SMat V)) (master : List V) (c : CIdx)
    (extra : Option (List (PIdx (PyFn V)))) (entry : Option Prim) : Except PyErr (SMat V) :=
  match dictGet map c with
  | none => .error .generic
  | some m =>
    let symm := match entry with
      | none => false
      | some p => p.symm
    match dictGet prio c, extra.getD [] with
    | some r, [] => if symm then triu2symm r else .ok r
    | _, x => (performExtraIndex applyIdx m entry false x).bind fun i =>
        (gather master i).bind fun r => if symm then triu2symm r else .ok r

/-- `SetterDispatcher` (structure3.py:611-638): the new `master`; `master` may already have been changed when an exception
is raised. -/
def setCall [Zero V] (map : List (CIdx × IMat)) (pay : Pay V) (c : CIdx) (extra : Option (List (PIdx (PyFn V))))
    (entry : Option Prim) : M (List V) Unit := fun master =>
  match pay.toMat with
  | .error e => (.error e, master)
  | .ok m => match dictGet map c with
    | none => (.error .generic, master)
    | some idx => match performExtraIndex applyIdx idx entry false (extra.getD []) with
      | .error e => (.error e, master)
      | .ok i => match entry with
        | some ⟨_, true, orig, ss⟩ =>
          match performExtraIndex applyIdx idx entry true (extra.getD []) with
          | .error e => (.error e, master)
          | .ok iflip =>
            if m.isScalar then
              match assign master i m with
              | .error e => (.error e, master)
              | .ok master => match assign master iflip m with
                | .error e => (.error e, master)
                | .ok master => (.ok (), master)
            else match orig with
              | none => (.error .attribute, master)
              | some osp => match performExtraIndex applyIdx ⟨osp, osp.nz.map fun _ => 1⟩ entry false (extra.getD []) with
                | .error e => (.error e, master)
                | .ok oi =>
                  if oi.sp ≠ m.sp then (.error .generic, master)
                  else if iflip.sp.rows ≠ m.sp.cols ∨ iflip.sp.cols ≠ m.sp.rows then (.error .runtime, master)
                  else match assign master iflip (m.T.project iflip.sp) with
                    | .error e => (.error e, master)
                    | .ok master =>
                      if i.sp.rows ≠ m.sp.rows ∨ i.sp.cols ≠ m.sp.cols then (.error .runtime, master)
                      else match assign master i (m.project i.sp) with
                        | .error e => (.error e, master)
                        | .ok master => (.ok (), master)
        | _ => match assign master i m with
          | .error e => (.error e, master)
          | .ok master => (.ok (), master)

/-- The dispatcher for reading. -/
def getDisp [Zero V] [Add V] [Sub V] (map : List (CIdx × IMat)) (prio : List (CIdx × SMat V)) (master : List V) :
    Disp Unit V (PyFn V) (SMat V) where
  call _ _ c x e := ex (getCall map prio master c x e)
  outer _ f _ _ r := ex (f.onVal r)

/-- The dispatcher for `s.i[...]`. -/
def imDisp (map : List (CIdx × IMat)) : Disp Unit V (PyFn V) IMat where
  call _ _ c x e := ex (imCall applyIdx map c x e)
  outer _ f _ _ r := ex ((f.onIdx r).map .leaf)

/-- The dispatcher for `s.f[...]`; see `flatPyDisp` for callables. -/
def flatDisp (map : List (CIdx × IMat)) : Disp Unit V Empty (List ℤ) where
  call _ _ c x e := ex (flatCall (fun f => f.elim) map c x e)
  outer _ f := f.elim

/-- The result of a nested traversal with index matrices as leaves. -/
def Tree.mapM' {α β : Type} (f : α → Except PyErr β) : Tree α → Except PyErr (Tree β)
  | .leaf a => (f a).map .leaf
  | .list l => (goList l).map .list
  | .dict l => (goDict l).map .dict
where
  goList : List (Tree α) → Except PyErr (List (Tree β))
    | [] => .ok []
    | t :: l => (Tree.mapM' f t).bind fun t => (goList l).map fun l => t :: l
  goDict : List (String × Tree α) → Except PyErr (List (String × Tree β))
    | [] => .ok []
    | (k, t) :: l => (Tree.mapM' f t).bind fun t => (goDict l).map fun l => (k, t) :: l

/-- The dispatcher for writing (structure3.py:611-649).  Results: `none` for a completed write, the index matrix inside a
callable (`callableInner` is an `IMDispatcher`). -/
def setDisp [Zero V] (map : List (CIdx × IMat)) : Disp (List V) V (PyFn V) (Option IMat) where
  call inner pay c x e :=
    if inner then ex ((imCall applyIdx map c x e).map some)
    else M.bind (setCall map pay c x e) fun _ => M.pure none
  outer inner f pay _ r := fun master =>
    match r.mapM' (fun
      | some i => Except.ok i
      | none => .error .type) with
    | .error e => (.error e, master)
    | .ok t => match f.onIdx t with
      | .error e => (.error e, master)
      | .ok i =>
        if inner then (.ok (.leaf (some i)), master)
        else match pay.toMat with
          | .error e => (.error e, master)
          | .ok m => match assign master i m with
            | .error e => (.error e, master)
            | .ok master => (.ok (.leaf none), master)

/-- `vec(e)` (structure3.py:98-102) of nested lists.  Simplification: for a dict inside the result the model raises; the code
returns a dict or a list of dicts as it is, and raises TypeError if a list contains both dicts and lists (see `PyV.vec`). -/
def Tree.vec : Tree (List ℤ) → Except PyErr (List ℤ)
  | .leaf l => .ok l
  | .list l => goList l
  | .dict _ => .error .type
where
  goList : List (Tree (List ℤ)) → Except PyErr (List ℤ)
    | [] => .ok []
    | t :: l => (Tree.vec t).bind fun a => (goList l).map fun b => a ++ b

end

/-! ## Objects -/

/-- `s.i[pi]` (structure3.py:829-832) -/
def CS.i {V : Type} (c : CS) (pi : List (PIdx (PyFn V))) : Except PyErr (Tree IMat) :=
  (c.struct.traverse (imDisp (V := V) c.map) pi .none ()).1

/-- `s.f[pi]` (structure3.py:834-837); see `Tree.vec` for power indices whose result contains a dict. -/
def CS.f (c : CS) (pi : List (PIdx Empty)) : Except PyErr (List ℤ) :=
  ((c.struct.traverse (flatDisp (V := Empty) c.map) pi .none ()).1).bind Tree.vec

/-- What `delegation` uses of a structure. -/
def CS.shapeFns (c : CS) : ShapeFns := ⟨c.f, fun pi => c.i (V := Empty) (pi.map .lift)⟩

/-- An object with a struct, a `master` (dense column) and a `priority_object_map`: `MatrixStruct`, `msymStruct`, ... -/
structure Obj (V : Type) where
  cs : CS
  master : List V
  prio : List (CIdx × SMat V) := []

namespace Obj
variable {V : Type}

/-- `self[pi]` (structure3.py:651-654) -/
def getitem [Zero V] [Add V] [Sub V] (o : Obj V) (pi : List (PIdx (PyFn V))) : Except PyErr (Tree (SMat V)) :=
  (o.cs.struct.traverse (getDisp o.cs.map o.prio o.master) pi .none ()).1

/-- `self[pi] = value` (structure3.py:656-660): exception or not, and the object afterwards. -/
def setitem [Zero V] (o : Obj V) (pi : List (PIdx (PyFn V))) (value : Pay V) : Except PyErr Unit × Obj V :=
  match o.cs.struct.traverse (setDisp o.cs.map) pi value o.master with
  | (.ok _, master) => (.ok (), { o with master := master })
  | (.error e, master) => (.error e, { o with master := master })

end Obj

end CE.St
