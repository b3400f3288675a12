import Verif.Struct.PropsSymExpr
import Verif.Struct.PropsSyms

/-! # `struct_symSX` with entries of type 'symm' (C66) -/

namespace CE.St

variable {V : Type} [Zero V] [Add V] [Sub V]

/-- **C66** (type 'symm'): an entry with a given symbol and type 'symm' reads the symmetric matrix with the upper triangle of the
symbol, so the symbol itself if it is symmetric; every element of type 'symm' of an entry without given symbols reads a symmetric matrix
whose upper triangle consists of distinct fresh symbols. -/
theorem C66_symm_partial (hv : ∀ x : V, x + x - x = x) (fresh : ℕ → V) (arg : List (DefItem V)) (order : Option (List OrderItem))
    (h : SymDefs arg order) :
    ∃ c master, CS.ofList (arg.map DefItem.item) order = .ok c ∧ newSymSX fresh arg order = .ok ⟨c, master, []⟩ ∧
      (∀ d ∈ arg.flatMap DefItem.defs, ∀ m, d.sym = some m → ¬ d.entry.Untyped →
        ∃ r, (⟨c, master, []⟩ : Obj V).getitem [.str d.entry.name] = .ok (.leaf r) ∧ r.WF ∧
          (∀ i j, i ≤ j → r.at' (i, j) = m.at' (i, j) ∧ r.at' (j, i) = m.at' (i, j)) ∧
          ((∀ i j, m.at' (i, j) = m.at' (j, i)) → ∀ q, r.at' q = m.at' q)) ∧
      ∀ d ∈ arg.flatMap DefItem.defs, d.sym = none → ∀ ks p osp, IsLeaf c.struct.entries (.str d.entry.name :: ks) p → IsSymm p osp →
        ∃ (i : IMat) (r : SMat V), dictGet c.map (.str d.entry.name :: ks) = some i ∧ i.sp = p.sp ∧ i.data.Nodup ∧
          (⟨c, master, []⟩ : Obj V).getitem ((Key.str d.entry.name :: ks).map .ofKey) = .ok (.leaf r) ∧ r.WF ∧
          r.sp = IsSymm.pattern osp ∧ ∀ a b, a ≤ b →
            r.at' (a, b) = (⟨p.sp, i.data.map fresh⟩ : SMat V).at' (a, b) ∧ r.at' (b, a) = (⟨p.sp, i.data.map fresh⟩ : SMat V).at' (a, b) := by
  obtain ⟨c, ls, master, h1, hnew, hwf, hb, hmem, k2, k3, k4⟩ := newSymSX_ok fresh arg order h
  refine ⟨c, master, h1, hnew, ?_, ?_⟩
  · intro d hd m hm hu
    obtain ⟨hmw, hsd⟩ := h.sym d hd m hm
    have he := hmem d hd
    have k3' := k3 d hd m hm
    generalize d.entry = e at hsd he hu k3'
    cases hsd with
    | prim n ss => exact absurd rfl hu
    | nested n es o => exact absurd trivial hu
    | symm n p hs =>
      have hl : IsLeaf c.struct.entries [.str n] p := .prim (ks := []) he .nil
      obtain ⟨i, hg, hw, _, hin, hsp⟩ := hb.part hwf (.leaf hl)
      have hcan : p.sp.Canon := hl.canon hwf
      have hgat := k3' i hg
      rw [gather_ok (by rw [k2]; exact hin), hsp] at hgat
      have hst : stored c master [.str n] = (SMat.fill p.sp m.at').data := by
        rw [stored, hg]
        exact congrArg SMat.data (Except.ok.inj hgat)
      obtain ⟨r, r1, r2, _, r4⟩ := getitem_symm_of_stored hv hb hwf k2 hl hs (SMat.fill_WF hcan _) rfl hst
      have hval : ∀ i j, i ≤ j → (SMat.fill p.sp m.at').at' (i, j) = m.at' (i, j) := by
        intro i j hij
        rw [SMat.fill_at' hcan]
        split
        · rfl
        · rename_i hn
          rw [SMat.at'_zero hmw]
          intro hmem
          exact hn (hs.mem_sp.2 ⟨hmem, hij⟩)
      have hr : ∀ i j, i ≤ j → r.at' (i, j) = m.at' (i, j) ∧ r.at' (j, i) = m.at' (i, j) := by
        intro i j hij
        rw [← hval i j hij]
        exact r4 i j hij
      refine ⟨r, r1, r2, hr, ?_⟩
      rintro hsym ⟨i, j⟩
      rcases le_total i j with hij | hij
      · exact (hr i j hij).1
      · rw [(hr j i hij).2, hsym]
  · intro d hd hsym ks p osp hl hs
    obtain ⟨i, hg, hw, hnd, hin, hsp⟩ := hb.part hwf (.leaf hl)
    have hst : stored c master (.str d.entry.name :: ks) = (⟨p.sp, i.data.map fresh⟩ : SMat V).data := by
      rw [stored, hg]
      exact k4 d hd hsym ks _ _ (.leaf hl) i hg
    have hlen : (⟨p.sp, i.data.map fresh⟩ : SMat V).WF := ⟨hl.canon hwf, by
      have := hw.2
      rw [hsp] at this
      simpa using this⟩
    obtain ⟨r, r1, r2, r3, r4⟩ := getitem_symm_of_stored hv hb hwf k2 hl hs hlen rfl hst
    exact ⟨i, r, hg, hsp, hnd, r1, r2, r3, r4⟩

/-- Symbols are numbers here: `P` is the symmetric matrix of the symbols 100, 101, 102, and reads as itself. -/
example : ∃ c master, ∃ r : SMat ℚ, newSymSX (V := ℚ) (fun k => k)
      [.one ⟨.prim "P" [] (symmPrim (.dense 2 2)), some ⟨.dense 2 2, [100, 101, 101, 102]⟩, none⟩] none = .ok ⟨c, master, []⟩ ∧
    (⟨c, master, []⟩ : Obj ℚ).getitem [.str "P"] = .ok (.leaf r) ∧ r.at' (0, 0) = 100 ∧ r.at' (0, 1) = 101 ∧ r.at' (1, 0) = 101 ∧
    r.at' (1, 1) = 102 := by
  have hm : (⟨.dense 2 2, [100, 101, 101, 102]⟩ : SMat ℚ).WF := ⟨Sparsity.dense_canon _ _, rfl⟩
  obtain ⟨c, master, _, h2, h3, _⟩ := C66_symm_partial (fun x : ℚ => by ring) (fun k => k)
      [.one ⟨.prim "P" [] (symmPrim (.dense 2 2)), some ⟨.dense 2 2, [100, 101, 101, 102]⟩, none⟩] none (by
    refine ⟨by simp [DefItem.defs], by rintro o ⟨⟩, ?_, ?_, ?_, ?_⟩
    · intro d hd; simp [DefItem.defs] at hd; subst hd; rfl
    · intro d hd n ds p he; simp [DefItem.defs] at hd; subst hd; cases he; exact Sparsity.inter_canon (Sparsity.dense_canon _ _) _
    · intro d hd n ds es o he; simp [DefItem.defs] at hd; subst hd; cases he
    · intro d hd m' he; simp [DefItem.defs] at hd; subst hd; cases he
      exact ⟨hm, .symm _ _ ⟨rfl, rfl, Sparsity.dense_canon _ _, rfl, rfl⟩⟩)
  obtain ⟨r, r1, _, r2, _⟩ := h3 ⟨.prim "P" [] (symmPrim (.dense 2 2)), some ⟨.dense 2 2, [100, 101, 101, 102]⟩, none⟩ (by simp [DefItem.defs]) _ rfl
    (by simp [Entry.Untyped, symmPrim])
  refine ⟨c, master, r, h2, r1, ?_, ?_, ?_, ?_⟩
  · rw [(r2 0 0 le_rfl).1]; decide +kernel
  · rw [(r2 0 1 (by omega)).1]; decide +kernel
  · rw [(r2 0 1 (by omega)).2]; decide +kernel
  · rw [(r2 1 1 le_rfl).1]; decide +kernel

end CE.St
