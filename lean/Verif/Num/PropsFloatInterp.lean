import Verif.Num.LemFloatInterp
import Verif.Num.PropsFloatDiff

/-!
# `Pdq.interpolator` with rounding errors (C124)
-/

open Polynomial

namespace CE

namespace Flt

variable {f : Flt}

/-- **C124** `interpolator('both')` and `interpolator('right')` of a computed grid whose points ascend, with rounding errors: every call with the
right number of columns succeeds; on every interval the values are those of the polynomial through the data at the computed points, up to
rounding errors relative to `∑ |x[r,k]*ℓ_k|`; and at a collocation point the result is exactly the given value if this is a floating point
number, although the points of the last interval may lie beyond `t[-1]`. -/
theorem C124_interpolator (cp t : List ℝ) (order : ℕ) (g : GoodScheme cp order) (hfl : ∀ x ∈ t, f.IsFl x) (p : Grid)
    (hp : f.pdqNew (.ok cp) t order = .ok p) (hpts : Ascending p.collocationPoints) (c : String) (m : ℕ)
    (hc : c = "both" ∧ m = order + 1 ∨ c = "right" ∧ m = order) (x : Mat ℝ) (hx : x.cols + (order + 1 - m) = p.collocationPoints.length)
    (q : List ℝ) (hq : q ≠ []) :
    ∃ I V, f.interpolator p c = .ok I ∧ f.interpolatorCall I x q = .ok V ∧ V.rows = x.rows ∧ V.cols = q.length ∧
      (∀ i < q.length, ∀ n, InRight t n (nd q i) → ∀ r P, Interpolates p.collocationPoints x (n * order) m r P →
        let ℓ := fun j => (Lagrange.basis (Finset.range m) (fun k => nd p.collocationPoints (n * order + k)) j).eval (nd q i)
        let E := (1 / (1 - f.u) ^ (3 * m + 1) - 1) * ∑ j ∈ Finset.range m, |ℓ j|
        E < 1 → |V.e r i - P.eval (nd q i)| ≤
          (1 / (1 - f.u) ^ m * (1 + 2 * E / (1 - E)) - 1) * ∑ j ∈ Finset.range m, |x.e r (n * order + j) * ℓ j|) ∧
      ∀ i < q.length, ∀ k < x.cols, nd q i = nd p.collocationPoints k → ∀ r, (∀ j < x.cols, f.IsFl (x.e r j)) → V.e r i = x.e r k := by
  obtain ⟨h2, -, w⟩ := built_of_ok g.len g.pos hp
  obtain ⟨-, -, -, -, -, hasc, -, hgrid, -, -, -⟩ := C117_grid_partial cp t order g hfl p hp
  have hpos := g.pos
  have he : (t.length - 1) * order = (t.length - 2) * order + order := by
    rw [show t.length - 1 = (t.length - 2) + 1 by omega]; ring
  have hms : modeShape order c = some (0, m) := by
    rcases hc with ⟨rfl, rfl⟩ | ⟨rfl, rfl⟩ <;> rfl
  have hmo : order ≤ m ∧ m ≤ order + 1 := by rcases hc with ⟨-, rfl⟩ | ⟨-, rfl⟩ <;> omega
  rw [w.plen] at hx
  obtain ⟨I, V, hI, hV, hr, hcol, hval⟩ := interpolatorCall_ok w hpos h2 hasc hpts c hms x (by omega) q hq
  have hget : ∀ n, ∀ k < m, (List.range' (n * order) m).getD k 0 = n * order + k := fun n k hk => by
    simp [List.getD_eq_getElem?_getD, hk]
  refine ⟨I, V, hI, hV, hr, hcol, fun i hi n hn r P hP => ?_, fun i hi k hk hqk r hfx => ?_⟩
  · intro ℓ E hE
    set tau := (List.range' (n * order) m).map (nd p.collocationPoints) with htau
    have hl : tau.length = m := by simp [htau]
    have hle : (n + 1) * order ≤ (t.length - 1) * order := Nat.mul_le_mul_right _ (by have := hn.1; omega)
    have he' : (n + 1) * order = n * order + order := by ring
    have hd : tau.Nodup := (subrange_asc hpts (by rw [w.plen]; omega)).nodup
    have hlag : ∀ j ∈ Finset.range m, (Lagrange.basis (Finset.range m) (nd tau) j).eval (nd q i) = ℓ j := fun j hj => by
      rw [htau, lag_subrange _ _ _ (Finset.mem_range.mp hj)]
    have hEe : f.γ (3 * tau.length + 1) * ∑ k ∈ Finset.range tau.length, |lag tau k (nd q i)| = E := by
      rw [hl]
      show f.γ (3 * m + 1) * _ = f.γ (3 * m + 1) * _
      congr 1
      refine Finset.sum_congr rfl fun j hj => ?_
      rw [← hlag j hj, ← hl]
    have h := (hval i hi n hn r).1 (by rw [hEe]; exact hE)
    have hPe := sum_mul_basis_eval hd (p := P) (by rw [hl]; exact hP.1) (nd q i)
    have s1 : ∑ j ∈ Finset.range tau.length, x.e r ((List.range' (n * order) m).getD j 0) * lag tau j (nd q i) = P.eval (nd q i) := by
      rw [← hPe]
      refine Finset.sum_congr rfl fun j hj => ?_
      have hj' : j < m := by rw [← hl]; exact Finset.mem_range.mp hj
      rw [hget n j hj', htau, nd_subrange _ _ _ _ hj', hP.2 j hj', mul_comm]
    rw [s1] at h
    refine h.trans (le_of_eq ?_)
    unfold evalBound
    simp only
    rw [hEe, hl, f.one_add_γ]
    congr 1
    refine Finset.sum_congr rfl fun j hj => ?_
    rw [hget n j (Finset.mem_range.mp hj), ← hlag j hj]
    unfold lag
    rw [hl]
  · obtain ⟨n, j, hn, hj, hk', hin⟩ : ∃ n j, n < t.length - 1 ∧ j < m ∧ k = n * order + j ∧ InRight t n (nd q i) := by
      rcases Nat.lt_or_ge k ((t.length - 1) * order) with h | h
      · obtain ⟨n, j, hn, hj, rfl⟩ := split_pos hpos h
        have hle : (n + 1) * order ≤ (t.length - 1) * order := Nat.mul_le_mul_right _ (by omega)
        have he' : (n + 1) * order = n * order + order := by ring
        refine ⟨n, j, hn, by omega, rfl, by omega, Or.inr ?_, ?_⟩
        · rw [hqk, ← (hgrid n hn).1]
          rcases Nat.eq_zero_or_pos j with rfl | h0
          · rw [add_zero]
          · exact (hpts.lt (by omega) (by rw [w.plen]; omega)).le
        · rcases Nat.lt_or_ge (n + 2) t.length with h3 | h3
          · refine Or.inr ?_
            rw [hqk, ← (hgrid (n + 1) (by omega)).1]
            exact hpts.lt (by omega) (by rw [w.plen]; omega)
          · exact Or.inl (by omega)
      · have hk' : k = (t.length - 1) * order := by omega
        refine ⟨t.length - 2, order, by omega, by omega, by omega, by omega, Or.inr ?_, Or.inl (by omega)⟩
        rw [hqk, hk', ← (hgrid (t.length - 2) (by omega)).1]
        exact (hpts.lt (by omega) (by rw [w.plen]; omega)).le
    have hle : (n + 1) * order ≤ (t.length - 1) * order := Nat.mul_le_mul_right _ (by omega)
    have he' : (n + 1) * order = n * order + order := by ring
    have hle2 : n * order ≤ (t.length - 2) * order := Nat.mul_le_mul_right _ (by omega)
    have h := (hval i hi n hin r).2 (fun j' hj' => by
      rw [List.length_map, List.length_range'] at hj'
      show f.IsFl (x.e r ((List.range' (n * order) m).getD j' 0))
      rw [hget n j' hj']
      exact hfx _ (by omega)) j (by simpa using hj) (by rw [hqk, hk', nd_subrange _ _ _ _ hj])
    rw [h]
    show x.e r ((List.range' (n * order) m).getD j 0) = _
    rw [hget n j hj, hk']

/-- **C124** The option 'left' raises IndexError in the last interval, as in C22. -/
theorem C124_left_raises (cp t : List ℝ) (order : ℕ) (g : GoodScheme cp order) (hfl : ∀ x ∈ t, f.IsFl x) (p : Grid)
    (hp : f.pdqNew (.ok cp) t order = .ok p) (x : Mat ℝ) (hx : x.cols + 1 = p.collocationPoints.length) (q : ℝ) (hq : nd t (t.length - 2) ≤ q) :
    ∃ I, f.interpolator p "left" = .ok I ∧ f.interpolatorCall I x [q] = .error .index := by
  obtain ⟨h2, -, w⟩ := built_of_ok g.len g.pos hp
  obtain ⟨-, -, -, -, -, hasc, -⟩ := C117_grid_partial cp t order g hfl p hp
  have hpos := g.pos
  rw [w.plen] at hx
  obtain ⟨I, hf, b⟩ := interpolator_ok w hpos "left" (a := 1) (m := order) rfl
  refine ⟨I, hf, ?_⟩
  have hn : InRight t (t.length - 2) q := ⟨by omega, Or.inr hq, Or.inl (by omega)⟩
  have hi := clip_searchsorted hasc .right hn
  have hng : t.length - 2 < I.groups.length := by rw [b.groups]; simp; omega
  have he : (t.length - 1) * order = (t.length - 2) * order + order := by
    rw [show t.length - 1 = (t.length - 2) + 1 by omega]; ring
  have hgn : I.groups[t.length - 2] = List.range' ((t.length - 2) * order + 1) order := by simp [b.groups]
  have hat : f.interpolatorAt I x q = .error .index := by
    unfold interpolatorAt
    simp only [b.pdq, w.bounds, hi]
    rw [pyIndex_nat hng, hgn]
    simp only [bind, Except.bind]
    unfold Mat.fancyCols
    rw [if_neg]
    intro hall
    rw [List.all_eq_true] at hall
    have := of_decide_eq_true (hall ((t.length - 1) * order) (by rw [List.mem_range'_1]; omega))
    omega
  unfold interpolatorCall
  simp only [b.pdq, b.cont, w.plen]
  rw [if_neg (by rw [if_neg (by decide)]; omega), List.mapM_cons, hat]
  rfl

/-- **C124** A wrong number of columns and an unknown option raise ValueError. -/
theorem C124_errors (cp t : List ℝ) (order : ℕ) (g : GoodScheme cp order) (p : Grid) (hp : f.pdqNew (.ok cp) t order = .ok p) (c : String) :
    (c ≠ "both" → c ≠ "left" → c ≠ "right" → f.interpolator p c = .error .value) ∧
    ∀ I, f.interpolator p c = .ok I → ∀ (x : Mat ℝ) (q : List ℝ),
      x.cols + (if c = "both" then 0 else 1) ≠ p.collocationPoints.length → f.interpolatorCall I x q = .error .value := by
  obtain ⟨h2, -, w⟩ := built_of_ok g.len g.pos hp
  refine ⟨fun h1 h3 h4 => ?_, fun I hI x q hx => ?_⟩
  · unfold interpolator interpolatorGroups
    rw [w.groups, show t.length - 1 = (t.length - 2) + 1 by omega, List.range_succ_eq_map, List.map_cons, List.mapM_cons]
    simp only [h1, h3, h4, if_false]
    rfl
  · have hb : I.pdq = p ∧ I.continuity = c := by
      unfold interpolator at hI
      split at hI
      · cases hI
      · simp only [bind, Except.bind] at hI
        split at hI
        · cases hI
        · cases hI
          exact ⟨rfl, rfl⟩
    unfold interpolatorCall
    simp only [hb.1, hb.2, w.plen] at hx ⊢
    rw [if_pos]
    split_ifs at hx ⊢ <;> omega

/-- **C124** Without rounding errors the result is exactly the value of the interpolating polynomial. -/
theorem C124_exact (hu : f.u = 0) (cp t : List ℝ) (order : ℕ) (g : GoodScheme cp order) (p : Grid)
    (hp : f.pdqNew (.ok cp) t order = .ok p) (hpts : Ascending p.collocationPoints) (c : String) (m : ℕ)
    (hc : c = "both" ∧ m = order + 1 ∨ c = "right" ∧ m = order) (x : Mat ℝ) (hx : x.cols + (order + 1 - m) = p.collocationPoints.length)
    (q : List ℝ) (hq : q ≠ []) :
    ∃ I V, f.interpolator p c = .ok I ∧ f.interpolatorCall I x q = .ok V ∧ ∀ i < q.length, ∀ n, InRight t n (nd q i) → ∀ r P,
      Interpolates p.collocationPoints x (n * order) m r P → V.e r i = P.eval (nd q i) := by
  obtain ⟨I, V, hI, hV, -, -, h, -⟩ := C124_interpolator cp t order g (fun x _ => rnd_exact hu x) p hp hpts c m hc x hx q hq
  refine ⟨I, V, hI, hV, fun i hi n hn r P hP => ?_⟩
  have h' := h i hi n hn r P hP
  simp only [hu, sub_zero, one_pow, div_one, sub_self, zero_mul, mul_zero, add_zero, mul_one] at h'
  exact sub_eq_zero.mp (abs_nonpos_iff.mp (h' one_pos))

/-- `Pdq([-1, 0.1], 1).interpolator()` with doubles: at the computed last point 0.10000000000000009, which is not 0.1, the result is exactly the
second value, and in the middle of the interval it is 3.5 up to a few roundings; 'left' raises at 0.1. -/
example : ∃ (p : Grid) (I : Interpolator) (V : Mat ℝ), double.pdqNew (.ok [0, 1]) [-1, tenth] 1 = .ok p ∧ double.interpolator p "both" = .ok I ∧
    double.interpolatorCall I ⟨1, 2, fun _ j => nd [2, 5] j⟩ [225179981368525 / 2 ^ 51, 0] = .ok V ∧ V.e 0 0 = 5 ∧
    |V.e 0 1 - (5 - 3 * (225179981368525 / 2 ^ 51) / (225179981368525 / 2 ^ 51 + 1))| ≤ 200 / 2 ^ 53 ∧
    ∃ J, double.interpolator p "left" = .ok J ∧ double.interpolatorCall J ⟨1, 1, fun _ _ => 5⟩ [tenth] = .error .index := by
  have g : GoodScheme [(0 : ℝ), 1] 1 := ⟨rfl, by norm_num, by
    intro i hi
    have hi : i = 0 := by simp at hi; omega
    subst hi
    norm_num [nd], rfl, le_of_eq rfl⟩
  obtain ⟨p, hp, hasc⟩ := C117_separated (f := double) _ [-1, tenth] 1 g exT_fl (by simp) (by
    intro i hi
    have hi : i = 0 := by simp at hi; omega
    subst hi
    norm_num [nd, tenth]) (by
    intro n hn j hj
    have hn : n = 0 := by simp at hn; omega
    have hj : j = 0 := by omega
    subst hn hj
    norm_num [nd, tenth, show double.u = 1 / 2 ^ 53 from rfl])
  have hend := (C117_end_refuted _ 1 g rfl p hp).1
  obtain ⟨-, -, hlen, -, -, -, -, hpts, htf, -⟩ := C117_grid_partial _ _ 1 g exT_fl p hp
  have x0 : nd p.collocationPoints 0 = -1 := (hpts 0 (by simp)).1
  have x1 : nd p.collocationPoints 1 = 225179981368525 / 2 ^ 51 := by
    rw [htf] at hend
    exact Except.ok.inj hend
  have hlen : p.collocationPoints.length = 2 := hlen
  obtain ⟨I, V, hI, hV, -, -, h1, h2⟩ := C124_interpolator [0, 1] [-1, tenth] 1 g exT_fl p hp hasc "both" 2 (Or.inl ⟨rfl, rfl⟩)
    ⟨1, 2, fun _ j => nd [2, 5] j⟩ (by rw [hlen]) [225179981368525 / 2 ^ 51, 0] (by simp)
  obtain ⟨J, hJ, hJe⟩ := C124_left_raises [0, 1] [-1, tenth] 1 g exT_fl p hp ⟨1, 1, fun _ _ => 5⟩ (by rw [hlen]) tenth (by norm_num [nd, tenth])
  refine ⟨p, I, V, hp, hI, hV, ?_, ?_, J, hJ, hJe⟩
  · refine h2 0 (by simp) 1 (by norm_num) x1.symm 0 fun j hj => ?_
    have : j = 0 ∨ j = 1 := by simp only at hj; omega
    rcases this with rfl | rfl
    · exact_mod_cast double_nat (m := 2) (by norm_num)
    · exact_mod_cast double_nat (m := 5) (by norm_num)
  · set a : ℝ := 225179981368525 / 2 ^ 51 with ha
    have h := h1 1 (by simp) 0 ⟨by simp, Or.inl rfl, Or.inl rfl⟩ 0 (C (5 - 3 * a / (a + 1)) + C (3 / (a + 1)) * X) ⟨by
        exact_mod_cast Flt.degree_linear _ _, fun k hk => ?_⟩
    · simp only [zero_mul, zero_add, Finset.sum_range_succ, Finset.sum_range_zero, Lagrange.basis] at h
      simp only [show (Finset.range 2).erase 0 = {1} by decide, show (Finset.range 2).erase 1 = {0} by decide, Finset.prod_singleton,
        Lagrange.basisDivisor, x0, x1, eval_add, eval_mul, eval_sub, eval_C, eval_X, show nd [a, 0] 1 = 0 from rfl, zero_sub, mul_zero, add_zero,
        show double.u = 1 / 2 ^ 53 from rfl] at h
      refine (h ?_).trans ?_ <;> rw [ha] <;> norm_num [nd]
    · have : k = 0 ∨ k = 1 := by omega
      rcases this with rfl | rfl
      · simp only [eval_add, eval_mul, eval_C, eval_X, zero_mul, zero_add, x0]
        rw [ha]
        norm_num [nd]
      · simp only [eval_add, eval_mul, eval_C, eval_X, zero_mul, zero_add, x1]
        rw [ha]
        norm_num [nd]

end Flt

end CE
