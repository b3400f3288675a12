import Verif.Struct.PropsVeccatAll
import Verif.Struct.PropsSymExpr

/-! # Copying between `struct_MX` objects with entries of type 'symm': C144 -/

namespace CE.St

variable {V : Type}

/-- The entry is not of type 'symm', or nothing is declared above the diagonal. -/
def Entry.Diag (e : Entry) : Prop := ∀ n d p osp, e = .prim n d p → IsSymm p osp → ∀ i j, (i, j) ∈ osp.nz → j ≤ i

section
variable [Zero V] [Add V] [Sub V] {c : CS} {o : VObj V}

/-- What is read from the entries of a complete `struct_MX`, and whether it has the stored pattern. -/
theorem VObj.read_all (hv : ∀ x : V, x + x - x = x) {ls} (hb : Built c ls) (hwf : WFs c.struct.entries c.struct.order) (h : VReach c o)
    (hall : ∀ t ∈ c.struct.traverseCanonicalIndex 1, ∃ m, o.expr t = some m)
    (hs : ∀ n d p, Entry.prim n d p ∈ c.struct.entries → p.symm = true → ∃ osp, IsSymm p osp) :
    ∃ x : Entry → List ℕ → SMat V, ∀ e ∈ c.struct.entries, o.getitem [.str e.name] = .ok (nest e.dims (x e)) ∧
      ∀ is, List.Forall₂ (· < ·) is e.dims →
        (e.Diag → o.expr (.str e.name :: natKeys is) = some (x e is) ∧ (x e is).WF ∧
          ∃ p, IsPart c.struct.entries (.str e.name :: natKeys is) p (x e is).sp) ∧
        (¬ e.Diag → ∃ p sp, IsPart c.struct.entries (.str e.name :: natKeys is) p sp ∧ (x e is).sp ≠ sp) := by
  have hg := h.good hwf
  obtain ⟨y, hy⟩ := VObj.read_entries hb hwf h hall
  obtain ⟨l, g1, g2, g3⟩ := (C52_cat hb hwf h).1 hall
  have key : ∀ e ∈ c.struct.entries, ∃ x : List ℕ → SMat V, o.getitem [.str e.name] = .ok (nest e.dims x) ∧
      ∀ is, List.Forall₂ (· < ·) is e.dims →
        (e.Diag → o.expr (.str e.name :: natKeys is) = some (x is) ∧ (x is).WF ∧
          ∃ p, IsPart c.struct.entries (.str e.name :: natKeys is) p (x is).sp) ∧
        (¬ e.Diag → ∃ p sp, IsPart c.struct.entries (.str e.name :: natKeys is) p sp ∧ (x is).sp ≠ sp) := by
    intro e he
    by_cases hsym : ∀ n d p, e = .prim n d p → p.symm = false
    · refine ⟨y e, (hy e he hsym).1, fun is his => ⟨fun _ => (hy e he hsym).2 is his, fun hd => (hd ?_).elim⟩⟩
      intro n d p osp heq hp
      have := (hsym n d p heq).symm.trans hp.symm
      cases this
    · push Not at hsym
      obtain ⟨n, d, p, rfl, hp⟩ := hsym
      rw [Bool.ne_false_iff] at hp
      obtain ⟨osp, hp⟩ := hs n d p he hp
      have hone : ∀ is, List.Forall₂ (· < ·) is d → ∃ r : SMat V,
          (⟨c, l, []⟩ : Obj V).getitem ((.str n :: natKeys is : CIdx).map .ofKey) = .ok (.leaf r) ∧ r.WF ∧
          r.sp = IsSymm.pattern osp ∧ ((Entry.prim n d p).Diag → o.expr (.str n :: natKeys is) = some r ∧ r.sp = p.sp) := by
        intro is his
        have hks := natKeys_inDims his
        have ht : (.str n :: natKeys is : CIdx) ∈ tops c.struct.entries c.struct.order := (mem_tops hwf).2 ⟨_, he, _, hks, rfl⟩
        have ht' := ht
        rw [← traverseCanonicalIndex_one] at ht'
        obtain ⟨m, hm⟩ := hall _ ht'
        obtain ⟨r, r1, r2, r3, r4⟩ := C143_read hv hb hwf h hall _ ht' p osp (.prim he hks) hp m hm
        rw [VObj.getitem, g1, hg.cs] at r1
        refine ⟨r, r1, r2, r3, ?_⟩
        intro hd
        have hd := hd n d p osp rfl hp
        obtain ⟨k, hk⟩ := List.mem_iff_getElem?.1 ht
        have hst := hm
        rw [hg.expr_at hwf hk] at hst
        obtain ⟨hmw, i, hi, hisp⟩ := hg.stored k _ m hk (by
          rcases hx : o.storage[k]? with _ | _ | m' <;> rw [hx] at hst <;> simp_all)
        obtain ⟨i', hi', _, _, _, hsp'⟩ := hb.part hwf (.leaf (.prim he hks))
        rw [hi] at hi'
        cases hi'
        have hmsp : m.sp = p.sp := hisp.symm.trans hsp'
        have hsp : r.sp = p.sp := by
          rw [r3]
          refine Sparsity.Canon.ext (Sparsity.ofPred_canon _ _ _) (hmsp ▸ hmw.1) hp.rows.symm hp.cols.symm ?_
          rintro ⟨i, j⟩
          rw [hp.mem_sp, IsSymm.pattern, Sparsity.mem_ofPred]
          simp only [decide_eq_true_eq]
          constructor
          · rintro ⟨_, h1 | ⟨h1, h2⟩⟩
            · exact h1
            · have : i = j := le_antisymm (hd j i h1) h2
              subst this
              exact ⟨h1, le_rfl⟩
          · intro h1
            have := hp.canon.mem h1.1
            have := hp.square
            exact ⟨by omega, .inl h1⟩
        refine ⟨?_, hsp⟩
        rw [hm, SMat.ext_at' hmw r2 (hmsp.trans hsp.symm)]
        rintro ⟨i, j⟩ hq
        rw [hmsp, hp.mem_sp] at hq
        exact ((r4 i j hq.2).1).symm
      haveI : Inhabited (SMat V) := ⟨.scalar 0⟩
      choose! x h1 h2 h3 h4 using hone
      refine ⟨x, ?_, ?_⟩
      · rw [VObj.getitem, g1, hg.cs]
        exact getitem_nest (⟨c, l, []⟩ : Obj V) hwf (a := []) .root he [] [] rfl .nil _ fun is his => h1 is his
      · intro is his
        have hpart : IsPart c.struct.entries (.str n :: natKeys is) (some p) p.sp := .leaf (.prim he (natKeys_inDims his))
        constructor
        · intro hd
          obtain ⟨k1, k2⟩ := h4 is his hd
          exact ⟨k1, h2 is his, _, by rw [k2]; exact hpart⟩
        · intro hd
          refine ⟨_, _, hpart, ?_⟩
          rw [h3 is his]
          intro heq
          apply hd
          intro n' d' p' osp' heq' hp' i j hij
          cases heq'
          have : osp' = osp := by
            have := hp'.orig.symm.trans hp.orig
            exact Option.some.inj this
          subst this
          by_contra hlt
          rw [not_le] at hlt
          have hmem : (j, i) ∈ p.sp.nz := by
            rw [← heq, IsSymm.pattern, Sparsity.mem_ofPred]
            simp only [decide_eq_true_eq]
            have := hp.canon.mem hij
            have := hp.square
            exact ⟨by omega, .inr ⟨hij, hlt.le⟩⟩
          have := (hp.mem_sp.1 hmem).2
          simp only at this
          omega
  haveI : Inhabited (SMat V) := ⟨.scalar 0⟩
  choose! x hx using key
  exact ⟨x, hx⟩

/-- **C144** (copying, exactly): for every `struct_MX` `s` whose expressions are all assigned, with any entries, `s[...]` can be read.
If no entry of type 'symm' (with at least one repetition) has an element above the diagonal, assigning the result to `t[...]` makes
any `struct_MX` `t` of the same layout equal to `s`.  Otherwise the assignment raises, for all `t`, also for `s` itself. -/
theorem C144_copy (hv : ∀ x : V, x + x - x = x) {ls} (hb : Built c ls) (hwf : WFs c.struct.entries c.struct.order) (h : VReach c o)
    (hall : ∀ t ∈ c.struct.traverseCanonicalIndex 1, ∃ m, o.expr t = some m)
    (hs : ∀ n d p, Entry.prim n d p ∈ c.struct.entries → p.symm = true → ∃ osp, IsSymm p osp) :
    ∃ r, o.getitem [.ellipsis] = .ok r ∧
      ((∀ n d p osp, Entry.prim n d p ∈ c.struct.entries → 0 ∉ d → IsSymm p osp → ∀ i j, (i, j) ∈ osp.nz → j ≤ i) →
        ∀ o', VReach c o' → o'.setitem [.ellipsis] r.toPay = (.ok (), o)) ∧
      ((∃ n d p osp i j, Entry.prim n d p ∈ c.struct.entries ∧ 0 ∉ d ∧ IsSymm p osp ∧ (i, j) ∈ osp.nz ∧ i < j) →
        ∀ o', VReach c o' → ∃ e, (o'.setitem [.ellipsis] r.toPay).1 = .error e) := by
  have hg := h.good hwf
  obtain ⟨x, hx⟩ := VObj.read_all hv hb hwf h hall hs
  obtain ⟨l, g1, g2, g3⟩ := (C52_cat hb hwf h).1 hall
  have hread : ∀ e ∈ c.struct.entries, (⟨c, l, []⟩ : Obj V).getitem [.str e.name] = .ok (nest e.dims (x e)) := by
    intro e he
    have := (hx e he).1
    rw [VObj.getitem, g1, hg.cs] at this
    exact this
  obtain ⟨E, hE, hEk⟩ := perm_map_exists Entry.name hwf.perm c.struct.entries rfl
  have hkeys : c.struct.order.flatMap OrderItem.names = E.map Entry.name := hEk.symm
  have hsplit : ∀ o', VReach c o' → o'.setitem [.ellipsis] (Tree.list (E.map fun e => nest e.dims (x e))).toPay =
      o'.setAll (E.map fun e => ([.str e.name], (nest e.dims (x e)).toPay)) := by
    intro o' ho'
    have hc' := (ho'.good hwf).cs
    have := C144_write_ellipsis o' (by rw [hc']; exact hwf) [] _ _ .root [] (toPays (E.map fun e => nest e.dims (x e)))
      (fun i => (((E.map fun e => nest e.dims (x e)).map Tree.toPay)[i]?).getD .none) (by
        intro i hi
        simp only [hc', hkeys, List.length_map] at hi
        rw [toPays_eq, List.getElem?_eq_getElem (by simpa using hi)]
        rfl)
    rw [List.map_nil, List.nil_append] at this
    rw [Tree.toPay, this]
    congr 1
    rw [hc', hkeys]
    apply List.ext_getElem
    · simp
    · intro i g1 g2
      simp at g2
      simp [g2]
  have hdims : ∀ {d is : List ℕ}, List.Forall₂ (· < ·) is d → 0 ∉ d := by
    intro d is hi
    induction hi with
    | nil => simp
    | cons h1 _ ih => rw [List.mem_cons, not_or]; exact ⟨by omega, ih⟩
  refine ⟨.list (E.map fun e => nest e.dims (x e)), ?_, ?_, ?_⟩
  · have := C63_read_ellipsis (⟨c, l, []⟩ : Obj V) hwf [] _ _ .root []
    rw [List.map_nil, List.nil_append] at this
    rw [VObj.getitem, g1, hg.cs]
    show (⟨c, l, []⟩ : Obj V).getitem _ = _
    rw [this]
    simp only
    rw [hkeys, List.mapM_map, except_mapM_ok E _ (fun e => nest e.dims (x e))]
    · rfl
    · intro e he
      exact hread e (hE.mem_iff.1 he)
  · intro hdiag o' ho'
    have hD : ∀ e ∈ c.struct.entries, ∀ is, List.Forall₂ (· < ·) is e.dims → e.Diag := by
      rintro e he is his n d p osp rfl hp
      exact hdiag n d p osp he (hdims his) hp
    rw [hsplit o' ho']
    obtain ⟨o1, k1, k2, k3, _⟩ := VObj.setAll_entries hb hwf x E ho' ((hE.map _).nodup_iff.2 hwf.nodup) (by
      intro e he
      have he := hE.mem_iff.1 he
      exact ⟨he, fun is his => (((hx e he).2 is his).1 (hD e he is his)).2⟩)
    rw [k1]
    congr 1
    refine (k2.good hwf).ext hwf hg ?_
    intro t ht
    obtain ⟨e, he, ks, hks, rfl⟩ := (mem_tops hwf).1 ht
    obtain ⟨is, his, rfl⟩ := inDims_natKeys hks
    rw [k3 e (hE.mem_iff.2 he) is his, (((hx e he).2 is his).1 (hD e he is his)).1]
  · rintro ⟨n, d, p, osp, i, j, he, h0, hp, hij, hlt⟩ o' ho'
    have hnd : ¬ (Entry.prim n d p).Diag := by
      intro hd
      have := hd n d p osp rfl hp i j hij
      omega
    have hpos : ∀ {d : List ℕ}, 0 ∉ d → List.Forall₂ (· < ·) (d.map fun _ => 0) d := by
      intro d hd
      induction d with
      | nil => exact .nil
      | cons a d ih =>
        rw [List.mem_cons, not_or] at hd
        exact .cons (Nat.pos_of_ne_zero (Ne.symm hd.1)) (ih hd.2)
    have his := hpos h0
    obtain ⟨q, sp, hq, hne⟩ := ((hx _ he).2 _ his).2 hnd
    rw [hsplit o' ho']
    refine VObj.setAll_error (c := c) _ _ (ho'.good hwf).cs ⟨_, List.mem_map.2 ⟨_, hE.mem_iff.2 he, rfl⟩, ?_⟩
    intro o1 ho1
    simp only
    rw [o1.setitem_dist (by rw [ho1]; exact hwf) (by rw [ho1]; exact he) _ (nest_covers _ _).1]
    refine VObj.setAll_error _ _ ho1 ⟨_, List.mem_map.2 ⟨_, mem_tuples.2 his, rfl⟩, ?_⟩
    intro o2 ho2
    have hat := (nest_covers (Entry.prim n d p).dims (x (Entry.prim n d p))).2 _ his
    simp only
    rw [hat, Option.getD_some]
    rw [VObj.setitem_pattern hb hwf ho2 hq _ hne]
    exact ⟨_, rfl⟩

end

/-! ## Example -/

/-- A `struct_MX` with a scalar and the 2x2 matrix `P` of type 'symm', given as upper triangle: it exists, and `s[...]` can be read; if `P`
is diagonal, what was read can be written, otherwise the assignment raises. -/
theorem symmEx_copy (x : ℤ) (P : SMat ℤ) (hP : P.WF) (hsq : P.sp.rows = P.sp.cols) (hup : ∀ i j, (i, j) ∈ P.sp.nz → i ≤ j) :
    ∃ (s : VObj ℤ) (r : Tree (SMat ℤ)), newVeccat ((symmExDefs x P).map .one) none = .ok s ∧ s.getitem [.ellipsis] = .ok r ∧
      ((∀ i j, (i, j) ∈ P.sp.nz → j ≤ i) → s.setitem [.ellipsis] r.toPay = (.ok (), s)) ∧
      ((∃ i j, (i, j) ∈ P.sp.nz ∧ i < j) → ∃ e, (s.setitem [.ellipsis] r.toPay).1 = .error e) := by
  have h := symmEx_defs x P hP hsq
  have hx := symmEx_isSymm P hP hsq
  obtain ⟨h1, h2⟩ := C143_MX _ none h
  obtain ⟨s, hs⟩ := h1.2 (by
    intro d hd pay ds osp hx i j hij
    have he := hx.expr
    simp only [symmExDefs, List.map_cons, List.map_nil, DefItem.defs, List.flatMap_cons, List.flatMap_nil, List.append_nil,
      List.cons_append, List.nil_append, List.mem_cons, List.not_mem_nil, or_false] at hd
    rcases hd with rfl | rfl
    · have := hx.eq
      simp only [symmPrim, EntryDef.mk.injEq, Entry.prim.injEq, Prim.mk.injEq, Bool.false_eq_true, false_and, and_false] at this
    · cases he
      have hg := hx.grid
      cases hg with
      | mat _ hsp => rw [← hsp] at hij; exact hup i j hij)
  obtain ⟨c, k1, k2, k3, k4⟩ := h2 s hs
  obtain ⟨c', ls, l1, l2, hwf, hb, _⟩ := h.struct
  rw [k1] at l1
  cases l1
  have hent : c.struct.entries = [.prim "x" [] ⟨.dense 1 1, false, none, none⟩, .prim "P" [] (symmPrim P.sp)] := by
    rw [l2]; rfl
  have hsym : ∀ n d p osp, Entry.prim n d p ∈ c.struct.entries → IsSymm p osp → osp = P.sp := by
    intro n d p osp he hp
    rw [hent] at he
    simp only [List.mem_cons, Entry.prim.injEq, List.not_mem_nil, or_false] at he
    rcases he with ⟨_, _, rfl⟩ | ⟨_, _, rfl⟩
    · cases hp.symm
    · exact Option.some.inj (hp.orig.symm.trans hx.isSymm.orig)
  obtain ⟨r, r1, r2, r3⟩ := C144_copy (fun y : ℤ => by ring) hb hwf k2 k4 (by
    intro n d p he hp
    rw [hent] at he
    simp only [List.mem_cons, Entry.prim.injEq, List.not_mem_nil, or_false] at he
    rcases he with ⟨_, _, rfl⟩ | ⟨_, _, rfl⟩
    · cases hp
    · exact ⟨_, hx.isSymm⟩)
  refine ⟨s, r, hs, r1, fun hd => r2 ?_ s k2, ?_⟩
  · intro n d p osp he _ hp i j hij
    rw [hsym n d p osp he hp] at hij
    exact hd i j hij
  · rintro ⟨i, j, hij, hlt⟩
    exact r3 ⟨"P", [], _, _, i, j, by rw [hent]; simp, by simp, hx.isSymm, hij, hlt⟩ s k2

/-- The upper triangle [[1, 2], [0, 3]]: `s[...] = s[...]` raises. -/
example : ∃ (s : VObj ℤ) (r : Tree (SMat ℤ)) (e : PyErr), newVeccat ((symmExDefs (7 : ℤ) ⟨.upper 2, [1, 2, 3]⟩).map .one) none = .ok s ∧
    s.getitem [.ellipsis] = .ok r ∧ (s.setitem [.ellipsis] r.toPay).1 = .error e := by
  obtain ⟨s, r, h1, h2, _, h3⟩ := symmEx_copy 7 ⟨.upper 2, [1, 2, 3]⟩ ⟨Sparsity.ofPred_canon _ _ _, by decide⟩ rfl
    (fun i j h => (Sparsity.mem_upper.1 h).1)
  obtain ⟨e, he⟩ := h3 ⟨0, 1, by decide, by decide⟩
  exact ⟨s, r, e, h1, h2, he⟩

/-- The diagonal matrix [[1, 0], [0, 3]]: `s[...] = s[...]` changes nothing. -/
example : ∃ (s : VObj ℤ) (r : Tree (SMat ℤ)), newVeccat ((symmExDefs (7 : ℤ) ⟨⟨2, 2, [(0, 0), (1, 1)]⟩, [1, 3]⟩).map .one) none = .ok s ∧
    s.getitem [.ellipsis] = .ok r ∧ s.setitem [.ellipsis] r.toPay = (.ok (), s) := by
  have hc : (⟨2, 2, [(0, 0), (1, 1)]⟩ : Sparsity).Canon := by
    have := Sparsity.ofPred_canon 2 2 fun q => q.1 = q.2
    exact this
  obtain ⟨s, r, h1, h2, h3, _⟩ := symmEx_copy 7 ⟨⟨2, 2, [(0, 0), (1, 1)]⟩, [1, 3]⟩ ⟨hc, rfl⟩ rfl
    (fun i j h => by simp at h; omega)
  exact ⟨s, r, h1, h2, h3 fun i j h => by simp at h; omega⟩

end CE.St
