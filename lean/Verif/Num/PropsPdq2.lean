import Verif.Num.PropsPdq
import Verif.Num.Solver

/-!
# Properties C19–C22: `Pdq.integral`, `Pdq.expandInput`, `Pdq.interpolator`
-/

open Polynomial

namespace CE

variable {K : Type} [Field K] [LinearOrder K] [IsStrictOrderedRing K]

/-! ## C19 -/

/-- The reduced differentiation matrix `D[:-1, 1:]` of ascending points is nonsingular. -/
theorem reducedD_nonsingular {tau : List K} {m : ℕ} (hm : tau.length = m + 1) (ha : tau.Nodup) {b : Basis K}
    (hb : polynomialBasis tau = .ok b) : b.D.dropLastRowFirstCol.Nonsingular := by
  obtain ⟨b', hb', hr, hc, hD, _⟩ := C03_differentiation_matrix tau (by intro h; simp [h] at hm) ha
  rw [hb] at hb'; cases hb'
  refine ⟨by simp only [Mat.dropLastRowFirstCol, hr, hc], ?_⟩
  intro v hv k hk
  simp only [Mat.dropLastRowFirstCol, hr, hc, hm, Nat.add_sub_cancel] at hv hk
  -- the polynomial with value 0 at the first node and v at the others
  let val : ℕ → K := fun j => if j = 0 then 0 else v (j - 1)
  let P := Lagrange.interpolate (Finset.range tau.length) (nd tau) val
  have hinj := nd_injOn ha
  have hPd : P.degree < tau.length := by
    have := Lagrange.degree_interpolate_lt val hinj
    rwa [Finset.card_range] at this
  have hPv : ∀ j < tau.length, P.eval (nd tau j) = val j := fun j hj =>
    Lagrange.eval_interpolate_at_node val hinj (by simpa)
  -- its derivative vanishes at the first m nodes
  have hz : ∀ j < m, (derivative P).eval (nd tau j) = 0 := by
    intro j hj
    rw [← hD P hPd j (by omega), hm, Finset.sum_range_succ']
    have := hv j hj
    rw [hPv 0 (by omega)]
    simp only [val, ↓reduceIte, mul_zero, add_zero]
    rw [← this]
    apply Finset.sum_congr rfl
    intro i hi
    rw [hPv (i + 1) (by have := Finset.mem_range.mp hi; omega)]
    simp [val]
  have hP0 : derivative P = 0 := by
    refine Polynomial.eq_zero_of_degree_lt_of_eval_finset_eq_zero ((Finset.range m).image (nd tau)) ?_ ?_
    · rw [Finset.card_image_of_injOn (hinj.mono (by
        intro x hx; simp only [Finset.coe_range, Set.mem_Iio] at hx ⊢; omega)), Finset.card_range]
      by_cases h0 : P = 0
      · rw [h0]; simp
      · rcases Nat.eq_zero_or_pos P.natDegree with h | h
        · rw [Polynomial.eq_C_of_natDegree_eq_zero h]; simp
        · have h1 : P.natDegree < m + 1 := by
            rw [hm] at hPd
            exact (natDegree_lt_iff_degree_lt h0).mpr hPd
          refine lt_of_le_of_lt degree_le_natDegree ?_
          have h2 := natDegree_derivative_lt (p := P) (by omega)
          exact_mod_cast (by omega : (derivative P).natDegree < m)
    · intro x hx
      obtain ⟨j, hj, rfl⟩ := Finset.mem_image.mp hx
      exact hz j (Finset.mem_range.mp hj)
  have hconst := Polynomial.natDegree_eq_zero_of_derivative_eq_zero hP0
  have hC := Polynomial.eq_C_of_natDegree_eq_zero hconst
  have e0 : P.coeff 0 = 0 := by
    have := hPv 0 (by omega)
    rw [hC] at this
    simpa [val] using this
  have := hPv (k + 1) (by omega)
  rw [hC, e0] at this
  simpa [val] using this.symm

/-- Column before block `n` of the integral: the start value or the last column of the previous block. -/
def prevCol (y0 : ℕ → K) (zs : List (Mat K)) (order n r : ℕ) : K :=
  match n with
  | 0 => y0 r
  | n + 1 => ((zs.getD n ⟨0, 0, fun _ _ => 0⟩).e r (order - 1))

theorem integral_fold (solve : Mat K → Mat K → Except PyErr (Mat K)) (hs : IsSolver solve) (order : ℕ)
    (hpos : 1 ≤ order) (dy : Mat K) (l : List (Basis K))
    (hl : ∀ b ∈ l, b.numPoints = order + 1 ∧ b.D.rows = order + 1 ∧ b.D.cols = order + 1 ∧
      b.D.dropLastRowFirstCol.Nonsingular)
    (k0 : ℕ) (y0 : ℕ → K) (ys : List (Mat K)) (hk : k0 + l.length * order ≤ dy.cols) :
    ∃ y1 zs, l.foldlM (Pdq.integralStep solve dy) (k0, y0, ys) = .ok (k0 + l.length * order, y1, ys ++ zs) ∧
      zs.length = l.length ∧ (∀ z ∈ zs, z.rows = dy.rows ∧ z.cols = order) ∧
      ∀ (n : ℕ) (hn : n < l.length) (hn' : n < zs.length), ∀ j < order, ∀ r < dy.rows,
        ∑ k ∈ Finset.range order, (l[n]).D.e j (k + 1) * ((zs[n]).e r k - prevCol y0 zs order n r)
          = dy.e r (k0 + n * order + j) := by
  induction l generalizing k0 y0 ys with
  | nil => exact ⟨y0, [], by simp [pure, Except.pure], rfl, by simp, by simp⟩
  | cons b l ih =>
    obtain ⟨h1, h2, h3, h4⟩ := hl b (by simp)
    simp only [List.length_cons] at hk
    have hlen : k0 + order + l.length * order = k0 + (l.length + 1) * order := by ring
    obtain ⟨W, hW, hWr, hWc, hWv⟩ := hs b.D.dropLastRowFirstCol (dy.colSlice k0 order).T h4 (by
      simp [Mat.T, Mat.colSlice, Mat.dropLastRowFirstCol, h2])
    have hWr' : W.rows = order := by rw [hWr]; simp [Mat.dropLastRowFirstCol, h3]
    have hWc' : W.cols = dy.rows := hWc
    set z : Mat K := ⟨W.cols, W.rows, fun i j => W.e j i + y0 i⟩ with hz
    obtain ⟨y1, zs, hf, hzl, hzs, hv⟩ := ih (fun b' hb' => hl b' (by simp [hb'])) (k0 + order)
      (fun i => z.e i (z.cols - 1)) (ys ++ [z]) (by omega)
    refine ⟨y1, z :: zs, ?_, by simp [hzl], ?_, ?_⟩
    · rw [List.foldlM_cons]
      have hstep : Pdq.integralStep solve dy (k0, y0, ys) b
          = .ok (k0 + order, fun i => z.e i (z.cols - 1), ys ++ [z]) := by
        unfold Pdq.integralStep
        simp only [h1, Nat.add_sub_cancel]
        rw [if_neg (by
          have : order ≤ (l.length + 1) * order := Nat.le_mul_of_pos_left _ (Nat.succ_pos _)
          omega)]
        simp only [hW, bind, Except.bind]
        rw [if_neg (by rw [hWr']; omega)]
        rfl
      rw [hstep]
      simp only [bind, Except.bind]
      rw [hf]
      simp only [List.length_cons, hlen, List.append_assoc, List.cons_append, List.nil_append]
    · intro a ha
      rcases List.mem_cons.mp ha with rfl | ha
      · exact ⟨hWc', hWr'⟩
      · exact hzs a ha
    · intro n hn hn' j hj r hr
      cases n with
      | zero =>
        simp only [List.getElem_cons_zero, prevCol, hz, add_sub_cancel_right, Nat.zero_mul, Nat.add_zero]
        have := hWv j (by simp [Mat.dropLastRowFirstCol, h2]; omega) r hr
        simp only [Mat.dropLastRowFirstCol, h3, Nat.add_sub_cancel, Mat.T, Mat.colSlice] at this
        exact this
      | succ n =>
        have h5 := hv n (by simpa using hn) (by simpa using hn') j hj r hr
        simp only [List.getElem_cons_succ]
        rw [show k0 + (n + 1) * order + j = k0 + order + n * order + j by ring, ← h5]
        apply Finset.sum_congr rfl
        intro k _
        congr 2
        cases n with
        | zero =>
          simp only [prevCol, List.getD_cons_zero, hz, hWr']
        | succ n => simp only [prevCol, List.getD_cons_succ]

/-- `y` with a column in front. -/
def Mat.prependCol (c : ℕ → K) (y : Mat K) : Mat K :=
  ⟨y.rows, y.cols + 1, fun i j => if j = 0 then c i else y.e i (j - 1)⟩

theorem Pdq.Built.basis_facts {p : Pdq K} {cp t : List K} {order : ℕ} (w : p.Built cp t order) :
    ∀ b ∈ p.basis, b.numPoints = order + 1 ∧ b.D.rows = order + 1 ∧ b.D.cols = order + 1 ∧
      b.D.dropLastRowFirstCol.Nonsingular ∧
      ∀ j ≤ order, ∑ k ∈ Finset.range (order + 1), b.D.e j k = 0 := by
  intro b hb
  obtain ⟨n, hn, rfl⟩ := List.mem_iff_getElem.mp hb
  have h := w.basis n hn
  have hn' : n + 1 < t.length := by have := w.blen; omega
  have hl : (gridPoints cp t n).length = order + 1 := by rw [gridPoints_length, w.scheme.len]
  obtain ⟨_, h1, h2, h3⟩ := basis_shape h
  rw [hl] at h1 h2 h3
  refine ⟨h1, h2, h3, reducedD_nonsingular hl (gridPoints_asc w.scheme w.asc hn').nodup h, ?_⟩
  obtain ⟨b', hb', _, _, _, _, hs⟩ := C03_differentiation_matrix (gridPoints cp t n)
    (by intro h; rw [h] at hl; simp at hl) (gridPoints_asc w.scheme w.asc hn').nodup
  rw [h] at hb'; cases hb'
  intro j hj
  have := hs j (by omega)
  rwa [hl] at this

/-- The result of `integral` on enough columns, with its defining equations. -/
theorem Pdq.Built.integral_ok {p : Pdq K} {cp t : List K} {order : ℕ} (w : p.Built cp t order)
    (solve : Mat K → Mat K → Except PyErr (Mat K)) (hs : IsSolver solve) (dy : Mat K)
    (hc : (t.length - 1) * order ≤ dy.cols) :
    ∃ y, p.integral solve dy = .ok y ∧ y.rows = dy.rows ∧ y.cols = (t.length - 1) * order ∧
      ∀ (n : ℕ) (hn : n < p.basis.length), ∀ j < order, ∀ r < dy.rows,
        ∑ k ∈ Finset.range order, (p.basis[n]).D.e j (k + 1) *
          ((Mat.prependCol (fun _ => 0) y).e r (n * order + (k + 1)) -
            (Mat.prependCol (fun _ => 0) y).e r (n * order)) = dy.e r (n * order + j) := by
  have hpos := w.scheme.pos
  obtain ⟨y1, zs, hf, hzl, hzs, hv⟩ := integral_fold solve hs order hpos dy p.basis
    (fun b hb => by obtain ⟨h1, h2, h3, h4, _⟩ := w.basis_facts b hb; exact ⟨h1, h2, h3, h4⟩)
    0 (fun _ => 0) [] (by rw [w.blen]; omega)
  have hoff : ∀ n ≤ zs.length, off Mat.cols zs n = n * order := fun n hn =>
    off_const _ zs order (fun z hz => (hzs z hz).2) hn
  refine ⟨Mat.hcat dy.rows zs, ?_, hcat_rows _ _, ?_, ?_⟩
  · unfold Pdq.integral
    rw [hf]; rfl
  · rw [hcat_cols, hoff _ le_rfl, hzl, w.blen]
  · intro n hn j hj r hr
    have hn' : n < zs.length := by omega
    rw [← Nat.zero_add (n * order + j), ← Nat.add_assoc, ← hv n hn hn' j hj r hr]
    apply Finset.sum_congr rfl
    intro k hk
    have hk' := Finset.mem_range.mp hk
    congr 2
    · have h := hcat_e dy.rows zs hn' (j := k) (by rw [(hzs _ (List.getElem_mem hn')).2]; exact hk') r
      rw [hoff n hn'.le] at h
      simp only [Mat.prependCol]
      rw [if_neg (by omega), ← h]
      congr 1
    · cases n with
      | zero => simp [Mat.prependCol, prevCol]
      | succ n =>
        have hn'' : n < zs.length := by omega
        have h := hcat_e dy.rows zs hn'' (j := order - 1)
          (by rw [(hzs _ (List.getElem_mem hn'')).2]; omega) r
        rw [hoff n hn''.le] at h
        have he : (n + 1) * order = n * order + order := by ring
        simp only [Mat.prependCol, prevCol]
        rw [if_neg (by omega), show (n + 1) * order - 1 = n * order + (order - 1) by omega, h]
        simp [List.getD_eq_getElem?_getD, hn'']

/-- **C19** `Pdq.integral` returns values at all points but the first; with a zero prepended, `Pdq.derivative` gives back
`dy`. -/
theorem C19_derivative_of_integral (solve : Mat K → Mat K → Except PyErr (Mat K)) (hs : IsSolver solve)
    (cp : List K) (order : ℕ) (g : GoodScheme cp order) (t : List K) (p : Pdq K)
    (hp : Pdq.new (.ok cp) t order = .ok p) (dy : Mat K) (hc : dy.cols + 1 = p.collocationPoints.length) :
    ∃ y, p.integral solve dy = .ok y ∧ y.rows = dy.rows ∧ y.cols + 1 = p.collocationPoints.length ∧
      ∃ d, p.derivative (Mat.prependCol (fun _ => 0) y) = .ok d ∧ d.Same dy := by
  have w := Pdq.built_of_ok g hp
  have hpos := g.pos
  rw [w.plen] at hc ⊢
  obtain ⟨y, hy, hr, hcy, hv⟩ := w.integral_ok solve hs dy (by omega)
  obtain ⟨d, hd, hdr, hdc, hdv⟩ := w.derivative_ok (Mat.prependCol (fun _ => 0) y) (by
    simp [Mat.prependCol, hcy])
  refine ⟨y, hy, hr, by rw [hcy], d, hd, by rw [hdr]; exact hr, by omega, ?_⟩
  intro r hrr i hi
  rw [hdr] at hrr
  have hrr' : r < dy.rows := by rw [← hr]; exact hrr
  rw [hdc] at hi
  obtain ⟨n, j, hn, hj, rfl⟩ := split_pos hpos hi
  have hnb : n < p.basis.length := by rw [w.blen]; exact hn
  rw [hdv r n hnb j hj, ← hv n hnb j hj r hrr', Finset.sum_range_succ']
  have hrow := (w.basis_facts _ (List.getElem_mem hnb)).2.2.2.2 j hj.le
  rw [Finset.sum_range_succ'] at hrow
  simp only [mul_sub, Finset.sum_sub_distrib, ← Finset.sum_mul]
  rw [show ∑ i ∈ Finset.range order, p.basis[n].D.e j (i + 1) = - p.basis[n].D.e j 0 from
    eq_neg_of_add_eq_zero_left hrow]
  rw [Nat.add_zero]
  simp only [mul_comm ((Mat.prependCol (fun _ => 0) y).e r _)]
  ring

/-- **C19** Conversely `integral(derivative(y)) = y[:, 1:] - y[:, 0]`. -/
theorem C19_integral_of_derivative (solve : Mat K → Mat K → Except PyErr (Mat K)) (hs : IsSolver solve)
    (cp : List K) (order : ℕ) (g : GoodScheme cp order) (t : List K) (p : Pdq K)
    (hp : Pdq.new (.ok cp) t order = .ok p) (y : Mat K) (hc : y.cols = p.collocationPoints.length) :
    ∃ d Y, p.derivative y = .ok d ∧ p.integral solve d = .ok Y ∧ Y.rows = y.rows ∧ Y.cols + 1 = y.cols ∧
      ∀ r < y.rows, ∀ k < Y.cols, Y.e r k = y.e r (k + 1) - y.e r 0 := by
  have w := Pdq.built_of_ok g hp
  have hpos := g.pos
  rw [w.plen] at hc
  obtain ⟨d, hd, hdr, hdc, hdv⟩ := w.derivative_ok y hc
  obtain ⟨Y, hY, hr, hcY, hv⟩ := w.integral_ok solve hs d (by omega)
  refine ⟨d, Y, hd, hY, by rw [hr, hdr], by omega, ?_⟩
  intro r hrr
  set Z := Mat.prependCol (fun _ => (0 : K)) Y with hZ
  -- block by block
  have key : ∀ n ≤ t.length - 1, ∀ i ≤ n * order, Z.e r i = y.e r i - y.e r 0 := by
    intro n
    induction n with
    | zero => intro _ i hi; have : i = 0 := by omega
              subst this; simp [hZ, Mat.prependCol]
    | succ n ih =>
      intro hn i hi
      have hnb : n < p.basis.length := by rw [w.blen]; omega
      rcases Nat.lt_or_ge (n * order) i with h | h
      · have he : (n + 1) * order = n * order + order := by ring
        obtain ⟨k, rfl⟩ : ∃ k, i = n * order + (k + 1) := ⟨i - n * order - 1, by omega⟩
        have hk : k < order := by omega
        have hns := (w.basis_facts _ (List.getElem_mem hnb)).2.2.2.1
        obtain ⟨_, hD1, hD2, _, hrow⟩ := w.basis_facts _ (List.getElem_mem hnb)
        have := hns.2 (fun k => (Z.e r (n * order + (k + 1)) - Z.e r (n * order)) -
          (y.e r (n * order + (k + 1)) - y.e r (n * order))) (by
            intro j hj
            simp only [Mat.dropLastRowFirstCol, hD1, hD2, Nat.add_sub_cancel] at hj ⊢
            simp only [mul_sub (p.basis[n].D.e j _) (Z.e r _ - Z.e r _) _, Finset.sum_sub_distrib]
            rw [hv n hnb j hj r (by omega), hdv r n hnb j hj, Finset.sum_range_succ']
            have hrow := hrow j hj.le
            rw [Finset.sum_range_succ'] at hrow
            simp only [mul_sub, Finset.sum_sub_distrib, ← Finset.sum_mul]
            rw [show ∑ i ∈ Finset.range order, p.basis[n].D.e j (i + 1) = - p.basis[n].D.e j 0 from
              eq_neg_of_add_eq_zero_left hrow]
            rw [Nat.add_zero]
            simp only [mul_comm (y.e r _)]
            ring) k (by simp only [Mat.dropLastRowFirstCol, hD2]; omega)
        have h0 := ih (by omega) (n * order) le_rfl
        rw [h0] at this
        linear_combination this
      · exact ih (by omega) i h
  intro k hk
  have := key (t.length - 1) le_rfl (k + 1) (by omega)
  rw [← this, hZ]
  simp [Mat.prependCol]

theorem integral_fold_short (solve : Mat K → Mat K → Except PyErr (Mat K)) (order : ℕ) (dy : Mat K)
    (l : List (Basis K)) (hl : ∀ b ∈ l, b.numPoints = order + 1) (s : ℕ × (ℕ → K) × List (Mat K))
    (h0 : s.1 ≤ dy.cols) (hk : dy.cols < s.1 + l.length * order) :
    ∃ e, l.foldlM (Pdq.integralStep solve dy) s = .error e := by
  induction l generalizing s with
  | nil => simp at hk; omega
  | cons b l ih =>
    rw [List.foldlM_cons]
    simp only [bind, Except.bind]
    cases hst : Pdq.integralStep solve dy s b with
    | error e => exact ⟨e, rfl⟩
    | ok s' =>
      simp only
      unfold Pdq.integralStep at hst
      simp only [hl b (by simp), Nat.add_sub_cancel] at hst
      split at hst
      · cases hst
      · next hle =>
        simp only [bind, Except.bind] at hst
        split at hst
        · cases hst
        · split at hst
          · cases hst
          · cases hst
            simp only [List.length_cons] at hk
            refine ih (fun b' hb' => hl b' (by simp [hb'])) _ (not_lt.mp hle) ?_
            have : (l.length + 1) * order = order + l.length * order := by ring
            simp only; omega

/-- **C19** `integral` succeeds iff there are at least as many columns as collocation points but one: too few columns
raise, but columns beyond the last collocation point are ignored without an error. -/
theorem C19_columns (solve : Mat K → Mat K → Except PyErr (Mat K)) (hs : IsSolver solve)
    (cp : List K) (order : ℕ) (g : GoodScheme cp order) (t : List K) (p : Pdq K)
    (hp : Pdq.new (.ok cp) t order = .ok p) (dy : Mat K) :
    (∃ y, p.integral solve dy = .ok y) ↔ p.collocationPoints.length ≤ dy.cols + 1 := by
  have w := Pdq.built_of_ok g hp
  constructor
  · rintro ⟨y, hy⟩
    by_contra h
    rw [w.plen] at h
    obtain ⟨e, he⟩ := integral_fold_short solve order dy p.basis (fun b hb => (w.basis_facts b hb).1)
      (0, fun _ => 0, []) (Nat.zero_le _) (by rw [w.blen]; simp only; omega)
    unfold Pdq.integral at hy
    rw [he] at hy; cases hy
  · intro h
    rw [w.plen] at h
    obtain ⟨y, hy, _⟩ := w.integral_ok solve hs dy (by omega)
    exact ⟨y, hy⟩

/-! ## C20 -/

/-- **C20** `expandInput`. -/
theorem C20_expandInput (cp : List K) (order : ℕ) (g : GoodScheme cp order) (t : List K) (p : Pdq K)
    (hp : Pdq.new (.ok cp) t order = .ok p) (u : Mat K) :
    (u.cols = t.length - 1 → ∃ U, p.expandInput u = .ok U ∧ U.rows = u.rows ∧
      U.cols = (t.length - 1) * order ∧
      ∀ r < u.rows, ∀ k < t.length - 1, ∀ j < order, U.e r (k * order + j) = u.e r k) ∧
    (u.cols ≠ t.length - 1 → p.expandInput u = .error .assertion) := by
  have w := Pdq.built_of_ok g hp
  have hN : p.numIntervals = t.length - 1 := by rw [Pdq.numIntervals, w.bounds]
  constructor
  · intro hu
    have hm := mapM_ok (fun (k : ℕ) => do
      let g ← pyIndex p.collocationGroups k
      pure (⟨u.rows, g.length - 1, fun i _ => u.e i k⟩ : Mat K)) (List.range (t.length - 1))
      (fun k => (⟨u.rows, order, fun i _ => u.e i k⟩ : Mat K)) (by
        intro k hk
        have hk := List.mem_range.mp hk
        simp only [w.groups, bind, Except.bind]
        rw [pyIndex_nat (by simpa using hk)]
        simp [pure, Except.pure])
    set l := (List.range (t.length - 1)).map (fun k => (⟨u.rows, order, fun i _ => u.e i k⟩ : Mat K)) with hl
    have hoff : ∀ n ≤ l.length, off Mat.cols l n = n * order := fun n hn =>
      off_const _ l order (by intro z hz; rw [hl, List.mem_map] at hz; obtain ⟨k, _, rfl⟩ := hz; rfl) hn
    have hll : l.length = t.length - 1 := by simp [hl]
    refine ⟨Mat.hcat u.rows l, ?_, hcat_rows _ _, ?_, ?_⟩
    · unfold Pdq.expandInput
      rw [if_neg (by rw [hN]; exact not_not.mpr hu), hN]
      rw [hm]; rfl
    · rw [hcat_cols, hoff _ le_rfl, hll]
    · intro r _ k hk j hj
      have := hcat_e u.rows l (n := k) (by omega) (j := j) (by simp [hl]; exact hj) r
      rw [hoff k (by omega)] at this
      rw [this]; simp [hl]
  · intro hu
    unfold Pdq.expandInput
    rw [if_pos (by rwa [hN])]

/-! ## Non-vacuity -/

/-- Hypotheses of C19 and C20: a solver exists, and `Pdq` objects with two intervals exist. -/
example : (∃ solve : Mat ℚ → Mat ℚ → Except PyErr (Mat ℚ), IsSolver solve) ∧
    GoodScheme legendre1 1 ∧ ∃ p, Pdq.new (.ok legendre1) [0, 1, 2] 1 = .ok p ∧
      p.collocationPoints.length = 3 := by
  obtain ⟨p, hp, hpts, _⟩ := C18_refuted_legendre
  exact ⟨exists_isSolver, legendre1_good, p, hp, by rw [hpts]; rfl⟩

/-- C19: integrating the derivative of any five values on the grid `[0, 1, 3]` gives their differences to the first one; the integral of
three columns raises. -/
example : ∃ (p : Pdq ℚ) (solve : Mat ℚ → Mat ℚ → Except PyErr (Mat ℚ)), IsSolver solve ∧
    Pdq.new (.ok ([0, 1 / 2, 1] : List ℚ)) [0, 1, 3] 2 = .ok p ∧
    (∀ v : ℕ → ℚ, ∃ d Y, p.derivative (⟨1, 5, fun _ i => v i⟩ : Mat ℚ) = .ok d ∧ p.integral solve d = .ok Y ∧ Y.cols = 4 ∧
      ∀ k < 4, Y.e 0 k = v (k + 1) - v 0) ∧
    ¬ ∃ y, p.integral solve (⟨1, 3, fun _ _ => 1⟩ : Mat ℚ) = .ok y := by
  obtain ⟨solve, hs⟩ := exists_isSolver (K := ℚ)
  obtain ⟨p, hp, hl, -⟩ := exPdq
  refine ⟨p, solve, hs, hp, fun v => ?_, ?_⟩
  · obtain ⟨d, Y, h1, h2, -, h4, h5⟩ := C19_integral_of_derivative solve hs _ 2 exGood _ p hp (⟨1, 5, fun _ i => v i⟩ : Mat ℚ) hl.symm
    have h4 : Y.cols + 1 = 5 := h4
    exact ⟨d, Y, h1, h2, by omega, fun k hk => h5 0 Nat.one_pos k (by omega)⟩
  · rw [C19_columns solve hs _ 2 exGood _ p hp, hl]
    decide

end CE
