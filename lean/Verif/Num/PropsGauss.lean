import Verif.Num.LemGauss

/-!
# Property C94: the nodes of the highest orders

That Gauss and Radau nodes exist for every order shows that the hypotheses `IsGauss` and `IsRadau` of C74, C75, C81, C87, C91, C92 can be
satisfied, and their uniqueness that they determine what `cs.collocation_points` has to return.
-/

open Polynomial

namespace CE

theorem isGauss_iff {tau : List ℝ} :
    IsGauss tau ↔ ∀ q : ℝ[X], q.degree < tau.length → pI ((tau.map fun c => X - C c).prod * q) = 0 := by
  constructor
  · intro h q hq
    obtain ⟨P, hP⟩ := exists_antiderivative ((tau.map fun c => X - C c).prod * q)
    rw [← hP, pI_derivative]
    exact h q P hq hP
  · intro h q P hq hP
    rw [← pI_derivative, hP]
    exact h q hq

theorem isRadau_iff {tau : List ℝ} :
    IsRadau tau ↔ 1 ∈ tau ∧ ∀ q : ℝ[X], q.degree < (tau.length - 1 : ℕ) → pI ((tau.map fun c => X - C c).prod * q) = 0 := by
  constructor
  · rintro ⟨h1, h⟩
    refine ⟨h1, fun q hq => ?_⟩
    obtain ⟨P, hP⟩ := exists_antiderivative ((tau.map fun c => X - C c).prod * q)
    rw [← hP, pI_derivative]
    exact h q P hq hP
  · rintro ⟨h1, h⟩
    refine ⟨h1, fun q P hq hP => ?_⟩
    rw [← pI_derivative, hP]
    exact h q hq

theorem isWeight_one : IsWeight 1 := fun x _ _ => by simp

theorem isWeight_radau : IsWeight (1 - X) := fun x _ h => by simpa using h

theorem sort_prod (S : Finset ℝ) : ((S.sort).map fun c => (X - C c : ℝ[X])).prod = S.prod fun a => X - C a := by
  have h : (S.sort : Multiset ℝ) = S.val := Finset.sort_eq S _
  rw [Finset.prod, ← h, Multiset.map_coe, Multiset.prod_coe]

theorem perm_of_nodes {l l' : List ℝ} (h : (l.map fun c => (X - C c : ℝ[X])).prod = (l'.map fun c => X - C c).prod) : l.Perm l' := by
  have h1 : ∀ l : List ℝ, (l.map fun c => (X - C c : ℝ[X])).prod.roots = (l : Multiset ℝ) := by
    intro l
    rw [← Multiset.prod_coe, ← Multiset.map_coe, roots_multiset_prod_X_sub_C]
  rw [← Multiset.coe_eq_coe, ← h1, ← h1, h]

theorem sub_nodes_degree {l l' : List ℝ} (h : l.length = l'.length) :
    ((l.map fun c => (X - C c : ℝ[X])).prod - (l'.map fun c => X - C c).prod).degree < l.length := by
  have d1 : ((l.map fun c => (X - C c : ℝ[X])).prod).degree = l.length := by
    rw [degree_eq_natDegree (monic_nodes l).ne_zero, nodes_natDegree]
  have d2 : ((l'.map fun c => (X - C c : ℝ[X])).prod).degree = l.length := by
    rw [degree_eq_natDegree (monic_nodes l').ne_zero, nodes_natDegree, h]
  rw [← d1]
  refine degree_sub_lt (d1.trans d2.symm) (monic_nodes l).ne_zero ?_
  rw [(monic_nodes l).leadingCoeff, (monic_nodes l').leadingCoeff]

/-- **C94** (Gauss, uniqueness) Any two lists of Gauss nodes of the same length are permutations of each other. -/
theorem C94_gauss_unique (tau tau' : List ℝ) (hl : tau.length = tau'.length) (hg : IsGauss tau) (hg' : IsGauss tau') :
    tau.Perm tau' := by
  have hd := sub_nodes_degree hl
  set d := (tau.map fun c => (X - C c : ℝ[X])).prod - (tau'.map fun c => X - C c).prod with hdd
  have h1 := isGauss_iff.1 hg d hd
  have h2 := isGauss_iff.1 hg' d (by rw [← hl]; exact hd)
  have h3 : pI (1 * d * d) = 0 := by
    rw [one_mul]
    nth_rewrite 1 [hdd]
    rw [sub_mul, map_sub, h1, h2, sub_zero]
  exact perm_of_nodes (sub_eq_zero.1 (pI_sq_eq_zero isWeight_one h3))

/-- **C94** (Gauss) For every number of nodes there is exactly one increasing list of Gauss nodes; they lie inside (0, 1). -/
theorem C94_gauss (M : ℕ) : ∃ tau : List ℝ, tau.length = M ∧ tau.Pairwise (· < ·) ∧ (∀ c ∈ tau, 0 < c ∧ c < 1) ∧ IsGauss tau ∧
    ∀ tau' : List ℝ, tau'.length = M → IsGauss tau' → tau'.Perm tau := by
  obtain ⟨p, hm, hd, ho⟩ := exists_orthogonal isWeight_one M
  obtain ⟨S, hc, hS, hp⟩ := orthogonal_roots isWeight_one hm hd ho
  have hlen : S.sort.length = M := by rw [Finset.length_sort, hc]
  have hg : IsGauss S.sort := by
    rw [isGauss_iff]
    intro q hq
    rw [hlen] at hq
    rw [sort_prod, hp, ← one_mul p]
    exact ho q hq
  refine ⟨S.sort, hlen, ?_, fun c hc => hS c ((Finset.mem_sort _).1 hc), hg,
    fun tau' hl hg' => C94_gauss_unique tau' _ (by rw [hl, hlen]) hg' hg⟩
  exact (Finset.sortedLT_sort S).pairwise

/-- **C94** (Radau, uniqueness) Any two lists of Radau nodes of the same length are permutations of each other. -/
theorem C94_radau_unique (tau tau' : List ℝ) (hl : tau.length = tau'.length) (hg : IsRadau tau) (hg' : IsRadau tau') :
    tau.Perm tau' := by
  have hd := sub_nodes_degree hl
  set d := (tau.map fun c => (X - C c : ℝ[X])).prod - (tau'.map fun c => X - C c).prod with hdd
  have hroot : ∀ l : List ℝ, 1 ∈ l → ((l.map fun c => (X - C c : ℝ[X])).prod).eval 1 = 0 := by
    intro l h
    rw [eval_list_prod]
    apply List.prod_eq_zero
    rw [List.map_map, List.mem_map]
    exact ⟨1, h, by simp⟩
  have hdr : d.IsRoot 1 := by
    rw [IsRoot.def, hdd, eval_sub, hroot _ hg.1, hroot _ hg'.1, sub_zero]
  obtain ⟨e, he⟩ := dvd_iff_isRoot.2 hdr
  by_cases he0 : e = 0
  · rw [he0, mul_zero, hdd] at he
    exact perm_of_nodes (sub_eq_zero.1 he)
  have hed : e.degree < (tau.length - 1 : ℕ) := by
    have h1 : d.natDegree = 1 + e.natDegree := by
      rw [he, natDegree_mul (X_sub_C_ne_zero _) he0, natDegree_X_sub_C]
    have hd0 : d ≠ 0 := by rw [he]; exact mul_ne_zero (X_sub_C_ne_zero _) he0
    rw [degree_eq_natDegree hd0] at hd
    have hd : d.natDegree < tau.length := by exact_mod_cast hd
    rw [degree_eq_natDegree he0]
    exact_mod_cast (by omega : e.natDegree < tau.length - 1)
  have h1 := (isRadau_iff.1 hg).2 e hed
  have h2 := (isRadau_iff.1 hg').2 e (by rw [← hl]; exact hed)
  have h3 : pI ((1 - X) * e * e) = 0 := by
    have : (1 - X : ℝ[X]) * e * e = -(d * e) := by rw [he, C_1]; ring
    rw [this, map_neg, hdd, sub_mul, map_sub, h1, h2, sub_zero, neg_zero]
  exact absurd (pI_sq_eq_zero isWeight_radau h3) he0

/-- **C94** (Radau) For every positive number of nodes there is exactly one increasing list of Radau nodes; they lie in (0, 1]. -/
theorem C94_radau (M : ℕ) : ∃ tau : List ℝ, tau.length = M + 1 ∧ tau.Pairwise (· < ·) ∧ (∀ c ∈ tau, 0 < c ∧ c ≤ 1) ∧ IsRadau tau ∧
    ∀ tau' : List ℝ, tau'.length = M + 1 → IsRadau tau' → tau'.Perm tau := by
  obtain ⟨p, hm, hd, ho⟩ := exists_orthogonal isWeight_radau M
  obtain ⟨S, hc, hS, hp⟩ := orthogonal_roots isWeight_radau hm hd ho
  have hlen : (S.sort ++ [(1 : ℝ)]).length = M + 1 := by rw [List.length_append, Finset.length_sort, hc]; rfl
  have hg : IsRadau (S.sort ++ [(1 : ℝ)]) := by
    rw [isRadau_iff]
    refine ⟨by simp, fun q hq => ?_⟩
    rw [hlen, Nat.add_sub_cancel] at hq
    have : ((S.sort ++ [(1 : ℝ)]).map fun c => (X - C c : ℝ[X])).prod * q = -((1 - X) * p * q) := by
      rw [List.map_append, List.prod_append, sort_prod, hp]
      simp only [List.map_cons, List.map_nil, List.prod_cons, List.prod_nil, C_1]
      ring
    rw [this, map_neg, ho q hq, neg_zero]
  refine ⟨S.sort ++ [1], hlen, ?_, ?_, hg, fun tau' hl hg' => C94_radau_unique tau' _ (by rw [hl, hlen]) hg' hg⟩
  · rw [List.pairwise_append]
    refine ⟨(Finset.sortedLT_sort S).pairwise, by simp, fun a ha b hb => ?_⟩
    rw [List.mem_singleton.1 hb]
    exact (hS a ((Finset.mem_sort _).1 ha)).2
  · intro c hc
    rcases List.mem_append.1 hc with h | h
    · have := hS c ((Finset.mem_sort _).1 h)
      exact ⟨this.1, this.2.le⟩
    · rw [List.mem_singleton.1 h]
      norm_num

/-- **C94** (nodes inside the interval) Gauss nodes are distinct and lie in (0, 1), Radau nodes are distinct and lie in (0, 1]. -/
theorem C94_inside (tau : List ℝ) (h : IsGauss tau ∨ IsRadau tau) :
    tau.Nodup ∧ (∀ c ∈ tau, 0 < c ∧ c ≤ 1) ∧ (IsGauss tau → ∀ c ∈ tau, c < 1) := by
  have hg : IsGauss tau → tau.Nodup ∧ ∀ c ∈ tau, 0 < c ∧ c < 1 := by
    intro hg
    obtain ⟨tau', -, hp, hin, -, hu⟩ := C94_gauss tau.length
    have hperm := hu tau rfl hg
    exact ⟨hperm.nodup_iff.2 (hp.imp fun h => h.ne), fun c hc => hin c (hperm.mem_iff.1 hc)⟩
  rcases h with h | h
  · exact ⟨(hg h).1, fun c hc => ⟨((hg h).2 c hc).1, ((hg h).2 c hc).2.le⟩, fun h c hc => ((hg h).2 c hc).2⟩
  · have hpos : tau.length ≠ 0 := by
      intro h0
      rw [List.length_eq_zero_iff.1 h0] at h
      exact absurd h.1 List.not_mem_nil
    obtain ⟨tau', -, hp, hin, -, hu⟩ := C94_radau (tau.length - 1)
    have hperm := hu tau (by omega) h
    exact ⟨hperm.nodup_iff.2 (hp.imp fun h => h.ne), fun c hc => hin c (hperm.mem_iff.1 hc), fun h c hc => ((hg h).2 c hc).2⟩

/-- **C94** (weights) The weights of the tableau are positive for Gauss and Radau nodes. -/
theorem C94_weights (tau : List ℝ) (h : IsGauss tau ∨ IsRadau tau) :
    ∃ T, butcherTableuForCollocationPoints tau = .ok T ∧ ∀ j < tau.length, 0 < T.b.e [j] := by
  obtain ⟨hd, -, -⟩ := C94_inside tau h
  have hor : ∀ q P : ℝ[X], q.degree < (tau.length - 1 : ℕ) → derivative P = (tau.map fun c => X - C c).prod * q →
      P.eval 1 - P.eval 0 = 0 := by
    rcases h with h | h
    · intro q P hq
      exact h q P (lt_of_lt_of_le hq (by exact_mod_cast Nat.sub_le _ _))
    · exact h.2
  obtain ⟨T, hT, h10⟩ := C10_quadrature_order tau hd (tau.length - 1)
  refine ⟨T, hT, fun j hj => ?_⟩
  set l := Lagrange.basis (Finset.range tau.length) (nd tau) j with hl
  obtain ⟨P, hP⟩ := exists_antiderivative (l ^ 2)
  have hdeg : (l ^ 2).degree < (tau.length + (tau.length - 1) : ℕ) := by
    have h1 : l.degree = (tau.length - 1 : ℕ) := by
      rw [hl, Lagrange.degree_basis (nd_injOn hd) (Finset.mem_range.mpr hj), Finset.card_range]
    rw [pow_two, degree_mul, h1]
    exact_mod_cast (by omega : tau.length - 1 + (tau.length - 1) < tau.length + (tau.length - 1))
  have hex := h10.mp hor (l ^ 2) P hdeg hP
  have hl1 : l.eval (nd tau j) = 1 := by rw [hl, Lagrange.eval_basis_self (nd_injOn hd) (Finset.mem_range.mpr hj)]
  rw [Finset.sum_eq_single j] at hex
  · rw [eval_pow, hl1, one_pow, mul_one] at hex
    rw [hex, ← pI_derivative, hP]
    refine pI_pos (fun x _ _ => ?_) (pow_ne_zero _ ?_)
    · rw [eval_pow]
      exact sq_nonneg _
    · intro h0
      rw [h0, eval_zero] at hl1
      exact zero_ne_one hl1
  · intro k hk hkj
    rw [eval_pow, hl, Lagrange.eval_basis_of_ne (fun h => hkj h.symm) hk]
    simp
  · intro h
    exact absurd (Finset.mem_range.mpr hj) h

theorem pI_reflect (f : ℝ[X]) : pI (f.comp (1 - X)) = pI f := by
  obtain ⟨P, hP⟩ := exists_antiderivative f
  have : derivative (-(P.comp (1 - X))) = f.comp (1 - X) := by
    rw [derivative_neg, derivative_comp, hP, derivative_sub, derivative_one, derivative_X]
    ring
  rw [← this, pI_derivative, ← hP, pI_derivative]
  simp [eval_comp]
  ring

theorem nodes_reflect (tau : List ℝ) : ((tau.map (1 - ·)).map fun c => (X - C c : ℝ[X])).prod =
    C ((-1) ^ tau.length) * ((tau.map fun c => (X - C c : ℝ[X])).prod).comp (1 - X) := by
  induction tau with
  | nil => simp
  | cons a l ih =>
    simp only [List.map_cons, List.prod_cons, List.length_cons, mul_comp, sub_comp, X_comp, C_comp] at ih ⊢
    rw [ih, pow_succ, C_mul, C_neg, C_1, C_sub, C_1]
    ring

/-- **C94** (symmetry) Increasing Gauss nodes are symmetric, as C76 assumes. -/
theorem C94_symmetric (tau : List ℝ) (hs : tau.Pairwise (· < ·)) (hg : IsGauss tau) : SymmetricNodes tau := by
  have hg' : IsGauss (tau.map (1 - ·)).reverse := by
    rw [isGauss_iff]
    intro q hq
    rw [List.length_reverse, List.length_map] at hq
    have hq' : (q.comp (1 - X)).degree < tau.length := by
      by_cases h0 : q = 0
      · rw [h0, zero_comp, degree_zero]
        exact WithBot.bot_lt_coe _
      · refine lt_of_le_of_lt (degree_le_natDegree) ?_
        have h1 : (1 - X : ℝ[X]).natDegree ≤ 1 := by
          refine (natDegree_sub_le _ _).trans ?_
          simp
        have h2 : q.natDegree < tau.length := by
          rw [degree_eq_natDegree h0] at hq
          exact_mod_cast hq
        have h3 : (q.comp (1 - X)).natDegree ≤ q.natDegree := natDegree_comp_le.trans (by nlinarith)
        exact_mod_cast lt_of_le_of_lt h3 h2
    have h1 := isGauss_iff.1 hg _ hq'
    rw [← pI_reflect, mul_comp, comp_assoc] at h1
    have h2 : (1 - X : ℝ[X]).comp (1 - X) = X := by simp
    rw [h2, comp_X] at h1
    rw [List.map_reverse, List.prod_reverse, nodes_reflect, mul_assoc, ← smul_eq_C_mul, map_smul, h1, smul_zero]
  have hperm := C94_gauss_unique tau _ (by simp) hg hg'
  have hs' : (tau.map (1 - ·)).reverse.Pairwise (· < ·) := by
    rw [List.pairwise_reverse, List.pairwise_map]
    exact hs.imp fun h => by linarith
  have heq : tau = (tau.map (1 - ·)).reverse := hperm.eq_of_pairwise (fun a b _ _ h h' => absurd h h'.not_gt) hs hs'
  intro j hj
  have h1 : nd tau j = nd (tau.map (1 - ·)).reverse j := by rw [← heq]
  have h2 : nd (tau.map (1 - ·)) (tau.length - 1 - j) = 1 - nd tau (tau.length - 1 - j) := by
    rw [nd_eq_getElem (by rw [List.length_map]; omega), List.getElem_map, nd_eq_getElem (by omega)]
  rw [nd_reverse (by simpa using hj), List.length_map, h2] at h1
  rw [h1]
  ring

/-- **C94** (tableau) If the weights of distinct nodes integrate all polynomials of degree less than twice their number exactly, then
the weights are positive, the nodes lie in (0, 1), and every other list of as many distinct nodes with this property is a
permutation of them. -/
theorem C94_exact (tau : List ℝ) (hd : tau.Nodup) (T : ButcherTableau ℝ) (hT : butcherTableuForCollocationPoints tau = .ok T)
    (h : ∀ p P : ℝ[X], p.degree < (2 * tau.length : ℕ) → derivative P = p →
      ∑ j ∈ Finset.range tau.length, T.b.e [j] * p.eval (nd tau j) = P.eval 1 - P.eval 0) :
    (∀ j < tau.length, 0 < T.b.e [j] ∧ 0 < nd tau j ∧ nd tau j < 1) ∧
    ∀ (tau' : List ℝ) (T' : ButcherTableau ℝ), tau'.Nodup → tau'.length = tau.length →
      butcherTableuForCollocationPoints tau' = .ok T' → (∀ p P : ℝ[X], p.degree < (2 * tau'.length : ℕ) → derivative P = p →
        ∑ j ∈ Finset.range tau'.length, T'.b.e [j] * p.eval (nd tau' j) = P.eval 1 - P.eval 0) → tau'.Perm tau := by
  have key : ∀ (tau : List ℝ) (T : ButcherTableau ℝ), tau.Nodup → butcherTableuForCollocationPoints tau = .ok T →
      (∀ p P : ℝ[X], p.degree < (2 * tau.length : ℕ) → derivative P = p →
        ∑ j ∈ Finset.range tau.length, T.b.e [j] * p.eval (nd tau j) = P.eval 1 - P.eval 0) → IsGauss tau := by
    intro tau T hd hT h
    obtain ⟨T', hT', h10⟩ := C10_quadrature_order tau hd tau.length
    rw [hT] at hT'
    cases hT'
    refine h10.2 fun p P hp hP => h p P ?_ hP
    rwa [two_mul]
  have hg := key tau T hd hT h
  refine ⟨fun j hj => ?_, fun tau' T' hd' hl hT' h' => C94_gauss_unique tau' tau hl (key tau' T' hd' hT' h') hg⟩
  obtain ⟨T', hT', hw⟩ := C94_weights tau (.inl hg)
  rw [hT] at hT'
  cases hT'
  obtain ⟨-, h1, h2⟩ := C94_inside tau (.inl hg)
  have hmem : nd tau j ∈ tau := by
    rw [nd_eq_getElem hj]
    exact List.getElem_mem hj
  exact ⟨hw j hj, (h1 _ hmem).1, h2 hg _ hmem⟩

/-- The two Gauss nodes of the example of C91 are the only ones. -/
example (tau : List ℝ) (h : tau.length = 2) (hg : IsGauss tau) : tau.Perm gaussTwo := C94_gauss_unique tau gaussTwo h hg gaussTwo_order

/-- One Radau node: 1; there is no other list with one node. -/
example (tau : List ℝ) (h : tau.length = 1) (hg : IsRadau tau) : tau = [1] := by
  match tau, h with
  | [a], _ => rw [List.mem_singleton.1 hg.1]

/-- The points 0 and 1 (trapezoidal rule) are neither Gauss nor Radau nodes. -/
example : ¬ IsGauss ([0, 1] : List ℝ) ∧ ¬ IsRadau ([0, 1] : List ℝ) :=
  ⟨fun h => lt_irrefl _ ((C94_inside _ (.inl h)).2.1 0 (by simp)).1, fun h => lt_irrefl _ ((C94_inside _ (.inr h)).2.1 0 (by simp)).1⟩

/-- Two Gauss nodes: symmetric, with positive weights; three Gauss nodes and three Radau nodes exist and are unique. -/
example : SymmetricNodes gaussTwo ∧ (∃ T, butcherTableuForCollocationPoints gaussTwo = .ok T ∧ 0 < T.b.e [0] ∧ 0 < T.b.e [1]) ∧
    (∃ tau : List ℝ, tau.length = 3 ∧ IsGauss tau ∧ ∀ tau' : List ℝ, tau'.length = 3 → IsGauss tau' → tau'.Perm tau) ∧
    ∃ tau : List ℝ, tau.length = 3 ∧ IsRadau tau ∧ ∀ tau' : List ℝ, tau'.length = 3 → IsRadau tau' → tau'.Perm tau := by
  refine ⟨C94_symmetric gaussTwo (by
    have := Real.sqrt_pos.2 (show (0 : ℝ) < 3 by norm_num)
    simp [gaussTwo]
    linarith) gaussTwo_order, ?_, ?_, ?_⟩
  · obtain ⟨T, h1, h2⟩ := C94_weights gaussTwo (.inl gaussTwo_order)
    exact ⟨T, h1, h2 0 (by decide), h2 1 (by decide)⟩
  · obtain ⟨tau, h1, -, -, h2, h3⟩ := C94_gauss 3
    exact ⟨tau, h1, h2, h3⟩
  · obtain ⟨tau, h1, -, -, h2, -⟩ := C94_radau 2
    exact ⟨tau, h1, h2, fun tau' h h' => C94_radau_unique tau' tau (by rw [h, h1]) h' h2⟩

end CE
