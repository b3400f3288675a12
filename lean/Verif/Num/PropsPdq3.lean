import Verif.Num.PropsPdq2

/-!
# Properties C21, C22: `Pdq.interpolator`
-/

open Polynomial

namespace CE

variable {K : Type} [Field K] [LinearOrder K] [IsStrictOrderedRing K]

/-- `P` is a polynomial of degree `< m` that takes the values of row `r` of `x`, columns `c0 ..< c0 + m`, at the points
`pts[c0 ..< c0 + m]`. -/
def Interpolates (pts : List K) (x : Mat K) (c0 m r : ℕ) (P : K[X]) : Prop :=
  P.degree < m ∧ ∀ k < m, P.eval (nd pts (c0 + k)) = x.e r (c0 + k)

theorem nd_subrange (pts : List K) (c0 m k : ℕ) (hk : k < m) :
    nd ((List.range' c0 m).map (nd pts)) k = nd pts (c0 + k) := by
  simp [nd, List.getD_eq_getElem?_getD, hk]

theorem subrange_asc {pts : List K} (h : Ascending pts) {c0 m : ℕ} (hb : c0 + m ≤ pts.length) :
    Ascending ((List.range' c0 m).map (nd pts)) := by
  intro i hi
  simp only [List.length_map, List.length_range'] at hi
  rw [nd_subrange _ _ _ _ (by omega), nd_subrange _ _ _ _ hi]
  exact h.lt (by omega) (by omega)

theorem fancyIndex_ok {pts : List K} {g : List ℕ} (h : ∀ i ∈ g, i < pts.length) :
    fancyIndex pts g = .ok (g.map (nd pts)) := by
  refine mapM_ok _ _ _ ?_
  intro i hi
  rw [pyIndex_nat (h i hi), nd_eq_getElem (h i hi)]

/-- Polynomials through the data exist and are unique. -/
theorem exists_interpolates {pts : List K} (h : Ascending pts) (x : Mat K) {c0 m : ℕ} (r : ℕ)
    (hb : c0 + m ≤ pts.length) : ∃ P, Interpolates pts x c0 m r P := by
  have ha := (subrange_asc h hb).nodup
  have hl : ((List.range' c0 m).map (nd pts)).length = m := by simp
  refine ⟨Lagrange.interpolate (Finset.range m) (nd ((List.range' c0 m).map (nd pts)))
    (fun k => x.e r (c0 + k)), ?_, ?_⟩
  · have hi := nd_injOn ha
    rw [hl] at hi
    have := Lagrange.degree_interpolate_lt (fun k => x.e r (c0 + k)) hi
    rwa [Finset.card_range] at this
  · intro k hk
    have hi := nd_injOn ha
    rw [hl] at hi
    rw [← nd_subrange _ c0 m k hk]
    exact Lagrange.eval_interpolate_at_node _ hi (by simpa)

/-- The three accepted continuity options as (shift of the group, size of the group). -/
def modeShape (order : ℕ) (c : String) : Option (ℕ × ℕ) :=
  if c = "both" then some (0, order + 1)
  else if c = "left" then some (1, order)
  else if c = "right" then some (0, order)
  else none

/-- A constructed interpolator. -/
structure PdqInterpolator.Built (f : PdqInterpolator K) (p : Pdq K) (c : String) (N order a m : ℕ) : Prop where
  pdq : f.pdq = p
  cont : f.continuity = c
  groups : f.groups = (List.range N).map fun i => List.range' (i * order + a) m
  blen : f.basis.length = N
  basis : ∀ (n : ℕ) (hn : n < f.basis.length),
    polynomialBasis ((List.range' (n * order + a) m).map (nd p.collocationPoints)) = .ok f.basis[n]

theorem Pdq.Built.interpolator_ok {p : Pdq K} {cp t : List K} {order : ℕ} (w : p.Built cp t order) (c : String)
    {a m : ℕ} (hc : modeShape order c = some (a, m)) :
    ∃ f, p.interpolator c = .ok f ∧ f.Built p c (t.length - 1) order a m := by
  have hpos := w.scheme.pos
  have ham : a + m ≤ order + 1 ∧ 1 ≤ m := by
    unfold modeShape at hc
    split_ifs at hc <;> · cases hc; omega
  have hg : interpolatorGroups p.collocationGroups c
      = .ok ((List.range (t.length - 1)).map fun i => List.range' (i * order + a) m) := by
    unfold interpolatorGroups
    rw [w.groups]
    rw [mapM_ok _ _ (fun g => if c = "both" then g else if c = "left" then g.tail else g.dropLast)]
    · rw [List.map_map]
      congr 1
      apply List.map_congr_left
      intro i _
      simp only [Function.comp]
      unfold modeShape at hc
      split_ifs at hc ⊢
      · cases hc; rfl
      · cases hc; rw [List.tail_range']; rfl
      · cases hc; rw [List.range'_1_concat, List.dropLast_concat]; rfl
    · intro g _
      unfold modeShape at hc
      split_ifs at hc ⊢ <;> rfl
  obtain ⟨l, hl, hlen, hall⟩ := mapM_ok' (fun g => do
      let pts ← fancyIndex p.collocationPoints g
      polynomialBasis pts) ((List.range (t.length - 1)).map fun i => List.range' (i * order + a) m)
    (fun g b => polynomialBasis (g.map (nd p.collocationPoints)) = .ok b) (by
      intro g hg
      rw [List.mem_map] at hg
      obtain ⟨i, hi, rfl⟩ := hg
      have hi := List.mem_range.mp hi
      have hle : (i + 1) * order ≤ (t.length - 1) * order := Nat.mul_le_mul_right _ hi
      have he : (i + 1) * order = i * order + order := by ring
      have hne : (List.range' (i * order + a) m).map (nd p.collocationPoints) ≠ [] := by
        intro h
        have := congrArg List.length h
        simp at this; omega
      refine ⟨_, ?_, polynomialBasis_ok hne⟩
      rw [fancyIndex_ok (by
        intro k hk
        rw [List.mem_range'_1] at hk
        rw [w.plen]; omega)]
      exact polynomialBasis_ok hne)
  refine ⟨⟨l, p, c, _⟩, ?_, rfl, rfl, rfl, by simpa using hlen, ?_⟩
  · unfold Pdq.interpolator
    rw [hg]
    simp only
    rw [hl]; rfl
  · intro n hn
    have := (hall n (by rw [← hlen]; exact hn) hn).2
    simpa using this

/-- One query point. -/
theorem PdqInterpolator.Built.callAt_ok {f : PdqInterpolator K} {p : Pdq K} {cp t : List K} {order a m : ℕ}
    {c : String} (b : f.Built p c (t.length - 1) order a m) (w : p.Built cp t order)
    (ham : a + m ≤ order + 1) (hm : 1 ≤ m) (x : Mat K) {n : ℕ} {ti : K} (hn : InRight t n ti)
    (hx : n * order + a + m ≤ x.cols) :
    ∃ V, f.callAt x ti = .ok V ∧ V.rows = x.rows ∧ V.cols = 1 ∧
      ∀ r P, Interpolates p.collocationPoints x (n * order + a) m r P → V.e r 0 = P.eval ti := by
  have hn1 : n + 1 < t.length := hn.1
  have hi := clip_searchsorted w.asc .right hn
  have hng : n < f.groups.length := by rw [b.groups]; simp; omega
  have hnb : n < f.basis.length := by rw [b.blen]; omega
  have hgn : f.groups[n] = List.range' (n * order + a) m := by simp [b.groups]
  set tau := (List.range' (n * order + a) m).map (nd p.collocationPoints) with htau
  have hle : (n + 1) * order ≤ (t.length - 1) * order := Nat.mul_le_mul_right _ (by omega)
  have he : (n + 1) * order = n * order + order := by ring
  have hd : tau.Nodup := (subrange_asc w.points_asc (by rw [w.plen]; omega)).nodup
  have hl : tau.length = m := by simp [htau]
  have hne : tau ≠ [] := by intro h; rw [h] at hl; simp at hl; omega
  obtain ⟨L, hL, hLr, hLc, hLe⟩ := interpolationMatrix_ok hd hne _ (b.basis n hnb) [ti] (by simp)
  rw [hl] at hLc hLe
  have hfc : x.fancyCols (List.range' (n * order + a) m)
      = .ok ⟨x.rows, m, fun i j => x.e i ((List.range' (n * order + a) m).getD j 0)⟩ := by
    unfold Mat.fancyCols
    rw [if_pos (by
      rw [List.all_eq_true]
      intro k hk
      rw [List.mem_range'_1] at hk
      exact decide_eq_true (by omega)), List.length_range']
  refine ⟨⟨x.rows, 1, fun i j => ∑ k ∈ Finset.range m,
    x.e i ((List.range' (n * order + a) m).getD k 0) * L.e j k⟩, ?_, rfl, rfl, ?_⟩
  · unfold PdqInterpolator.callAt
    simp only [b.pdq, w.bounds, hi]
    rw [pyIndex_nat hng, hgn]
    simp only [bind, Except.bind]
    rw [hfc, pyIndex_nat hnb]
    simp only [hL]
    unfold Mat.dot
    rw [if_pos (by exact hLc.symm)]
    simp only [Mat.T, hLr, List.length_cons, List.length_nil]
  · intro r P hP
    have := sum_mul_basis_eval hd (p := P) (by rw [hl]; exact hP.1) ti
    rw [hl] at this
    simp only
    rw [← this]
    apply Finset.sum_congr rfl
    intro k hk
    have hk' := Finset.mem_range.mp hk
    rw [hLe 0 (by simp) k hk', htau, nd_subrange _ _ _ _ hk', hP.2 k hk', mul_comm]
    simp [nd, List.getD_eq_getElem?_getD, hk']

/-- All query points: the options 'both' and 'right', whose groups stay inside the data. -/
theorem Pdq.Built.interpolator_call {p : Pdq K} {cp t : List K} {order : ℕ} (w : p.Built cp t order) (c : String)
    {m : ℕ} (hc : modeShape order c = some (0, m)) (x : Mat K) (hx : x.cols = (t.length - 2) * order + m)
    (q : List K) (hq : q ≠ []) :
    ∃ f V, p.interpolator c = .ok f ∧ f.call x q = .ok V ∧ V.rows = x.rows ∧ V.cols = q.length ∧
      ∀ i < q.length, ∀ n, InRight t n (nd q i) → ∀ r P,
        Interpolates p.collocationPoints x (n * order) m r P → V.e r i = P.eval (nd q i) := by
  have hpos := w.scheme.pos
  have h2 := w.two
  obtain ⟨f, hf, b⟩ := w.interpolator_ok c hc
  have hm : (c = "both" ∧ m = order + 1) ∨ (c = "right" ∧ m = order) := by
    unfold modeShape at hc
    split_ifs at hc with h1 h2 h3
    · cases hc; exact Or.inl ⟨h1, rfl⟩
    · cases hc
    · cases hc; exact Or.inr ⟨h3, rfl⟩
  obtain ⟨l, hl, hlen, hall⟩ := mapM_ok' (f.callAt x) q
    (fun ti V => V.rows = x.rows ∧ V.cols = 1 ∧ ∀ n, InRight t n ti →
      ∀ r P, Interpolates p.collocationPoints x (n * order) m r P → V.e r 0 = P.eval ti) (by
      intro ti _
      obtain ⟨n, hn⟩ := exists_inSide w.two .right ti
      have hn1 : n + 1 < t.length := hn.1
      have hle : n * order ≤ (t.length - 2) * order := Nat.mul_le_mul_right _ (by omega)
      obtain ⟨V, hV, hr, hc, hv⟩ := b.callAt_ok w (by omega) (by omega) x hn (by omega)
      exact ⟨V, hV, hr, hc, fun k hk => by rw [inSide_unique (s := .right) w.asc hk hn]; exact hv⟩)
  have hmem : ∀ A ∈ l, A.rows = x.rows ∧ A.cols = 1 := by
    intro A hA
    obtain ⟨i, hi, rfl⟩ := List.mem_iff_getElem.mp hA
    exact ⟨(hall i (by omega) hi).2.1, (hall i (by omega) hi).2.2.1⟩
  have hne : l ≠ [] := by intro h; subst h; exact hq (List.length_eq_zero_iff.mp (by simpa using hlen.symm))
  refine ⟨f, Mat.hcat x.rows l, hf, ?_, hcat_rows _ _, ?_, ?_⟩
  · unfold PdqInterpolator.call
    have he : (t.length - 1) * order = (t.length - 2) * order + order := by
      rw [show t.length - 1 = (t.length - 2) + 1 by omega]; ring
    have hexp : (if f.continuity = "both" then f.pdq.collocationPoints.length
        else f.pdq.collocationPoints.length - 1) = x.cols := by
      rw [b.pdq, b.cont, w.plen]
      rcases hm with ⟨rfl, rfl⟩ | ⟨rfl, rfl⟩
      · rw [if_pos rfl]; omega
      · rw [if_neg (by decide)]; omega
    simp only [hexp, ne_eq, not_true_eq_false, ↓reduceIte, hl, bind, Except.bind]
    exact hstack_ok hne (fun A hA => (hmem A hA).1)
  · rw [hcat_cols, off_const _ l 1 (fun A hA => (hmem A hA).2) le_rfl, mul_one, hlen]
  · intro k hk n hn r P hP
    have hk' : k < l.length := by omega
    have := hcat_e x.rows l hk' (j := 0) (by rw [(hmem _ (List.getElem_mem hk')).2]; exact one_pos) r
    rw [off_const _ l 1 (fun A hA => (hmem A hA).2) hk'.le, mul_one, add_zero] at this
    rw [this]
    have hx : nd q k = q[k] := nd_eq_getElem hk
    rw [hx] at hn ⊢
    exact (hall k hk hk').2.2.2 n hn r P hP

theorem Pdq.Built.inRight {p : Pdq K} {cp t : List K} {order : ℕ} (w : p.Built cp t order) {n j : ℕ}
    (hn : n < t.length - 1) (hj : j < order) : InRight t n (nd p.collocationPoints (n * order + j)) := by
  rw [w.pts n hn j hj]
  exact ⟨by omega, Or.inr (gridPoint_ge w.scheme w.asc (by omega) hj.le),
    Or.inr (gridPoint_lt_next w.scheme w.asc (by omega) hj)⟩

theorem Pdq.Built.inRight_last {p : Pdq K} {cp t : List K} {order : ℕ} (w : p.Built cp t order) :
    InRight t (t.length - 2) (nd p.collocationPoints ((t.length - 1) * order)) := by
  have h2 := w.two
  rw [w.last]
  exact ⟨by omega, Or.inr (gridPoint_ge w.scheme w.asc (by omega) le_rfl), Or.inl (by omega)⟩

/-- **C21** `interpolator('both')`: on every interval (closed on the left, first and last extended to infinity) the
polynomial through the interval's data; hence the given value at every collocation point, and the polynomial of an
interval attains at its right end the value returned there (continuity). -/
theorem C21_both (cp : List K) (order : ℕ) (g : GoodScheme cp order) (t : List K) (p : Pdq K)
    (hp : Pdq.new (.ok cp) t order = .ok p) (x : Mat K) (hx : x.cols = p.collocationPoints.length)
    (q : List K) (hq : q ≠ []) :
    ∃ f V, p.interpolator "both" = .ok f ∧ p.interpolator = .ok f ∧ f.call x q = .ok V ∧
      V.rows = x.rows ∧ V.cols = q.length ∧
      (∀ n, n + 1 < t.length → ∀ r, ∃ P, Interpolates p.collocationPoints x (n * order) (order + 1) r P) ∧
      (∀ i < q.length, ∀ n, InRight t n (nd q i) → ∀ r P,
        Interpolates p.collocationPoints x (n * order) (order + 1) r P → V.e r i = P.eval (nd q i)) ∧
      (∀ i < q.length, ∀ k < x.cols, nd q i = nd p.collocationPoints k → ∀ r, V.e r i = x.e r k) ∧
      (∀ i < q.length, ∀ n, n + 2 < t.length → nd q i = nd t (n + 1) → ∀ r P,
        Interpolates p.collocationPoints x (n * order) (order + 1) r P → V.e r i = P.eval (nd t (n + 1))) := by
  have w := Pdq.built_of_ok g hp
  have h2 := w.two
  have hpos := g.pos
  have he : (t.length - 1) * order = (t.length - 2) * order + order := by
    rw [show t.length - 1 = (t.length - 2) + 1 by omega]; ring
  rw [w.plen] at hx
  obtain ⟨f, V, hf, hV, hr, hc, hv⟩ := w.interpolator_call "both" (m := order + 1) rfl x (by omega) q hq
  have hex : ∀ n, n + 1 < t.length → ∀ r, ∃ P,
      Interpolates p.collocationPoints x (n * order) (order + 1) r P := by
    intro n hn r
    have hle : n * order ≤ (t.length - 2) * order := Nat.mul_le_mul_right _ (by omega)
    exact exists_interpolates w.points_asc x r (by rw [w.plen]; omega)
  have hrep : ∀ i < q.length, ∀ k < x.cols, nd q i = nd p.collocationPoints k → ∀ r, V.e r i = x.e r k := by
    intro i hi k hk hqk r
    rcases Nat.lt_or_ge k ((t.length - 1) * order) with h | h
    · obtain ⟨n, j, hn, hj, rfl⟩ := split_pos hpos h
      obtain ⟨P, hP⟩ := hex n (by omega) r
      rw [hv i hi n (by rw [hqk]; exact w.inRight hn hj) r P hP, hqk]
      exact hP.2 j (by omega)
    · have hk' : k = (t.length - 1) * order := by omega
      subst hk'
      obtain ⟨P, hP⟩ := hex (t.length - 2) (by omega) r
      rw [hv i hi (t.length - 2) (by rw [hqk]; exact w.inRight_last) r P hP, hqk, he]
      exact hP.2 order (by omega)
  refine ⟨f, V, hf, hf, hV, hr, hc, hex, hv, hrep, ?_⟩
  intro i hi n hn hqn r P hP
  have hb : nd p.collocationPoints ((n + 1) * order) = nd t (n + 1) := w.bound (by omega)
  have hle : (n + 1) * order ≤ (t.length - 1) * order := Nat.mul_le_mul_right _ (by omega)
  rw [hrep i hi ((n + 1) * order) (by omega) (by rw [hqn, hb]) r, ← hb]
  have := hP.2 order (by omega)
  rw [show n * order + order = (n + 1) * order by ring] at this
  exact this.symm

/-- **C21** `interpolator('right')`: one value per collocation point but the last; on every interval the polynomial
through the data at the interval's points but its right end; hence the given value at every collocation point but the
last; at an interval bound the value is the data of the interval to the right. -/
theorem C21_right (cp : List K) (order : ℕ) (g : GoodScheme cp order) (t : List K) (p : Pdq K)
    (hp : Pdq.new (.ok cp) t order = .ok p) (x : Mat K) (hx : x.cols + 1 = p.collocationPoints.length)
    (q : List K) (hq : q ≠ []) :
    ∃ f V, p.interpolator "right" = .ok f ∧ f.call x q = .ok V ∧ V.rows = x.rows ∧ V.cols = q.length ∧
      (∀ n, n + 1 < t.length → ∀ r, ∃ P, Interpolates p.collocationPoints x (n * order) order r P) ∧
      (∀ i < q.length, ∀ n, InRight t n (nd q i) → ∀ r P,
        Interpolates p.collocationPoints x (n * order) order r P → V.e r i = P.eval (nd q i)) ∧
      (∀ i < q.length, ∀ k < x.cols, nd q i = nd p.collocationPoints k → ∀ r, V.e r i = x.e r k) ∧
      (∀ i < q.length, ∀ n, n + 1 < t.length → nd q i = nd t n → ∀ r, V.e r i = x.e r (n * order)) := by
  have w := Pdq.built_of_ok g hp
  have h2 := w.two
  have hpos := g.pos
  have he : (t.length - 1) * order = (t.length - 2) * order + order := by
    rw [show t.length - 1 = (t.length - 2) + 1 by omega]; ring
  rw [w.plen] at hx
  obtain ⟨f, V, hf, hV, hr, hc, hv⟩ := w.interpolator_call "right" (m := order) rfl x (by omega) q hq
  have hex : ∀ n, n + 1 < t.length → ∀ r, ∃ P,
      Interpolates p.collocationPoints x (n * order) order r P := by
    intro n hn r
    have hle : n * order ≤ (t.length - 2) * order := Nat.mul_le_mul_right _ (by omega)
    exact exists_interpolates w.points_asc x r (by rw [w.plen]; omega)
  have hrep : ∀ i < q.length, ∀ k < x.cols, nd q i = nd p.collocationPoints k → ∀ r, V.e r i = x.e r k := by
    intro i hi k hk hqk r
    obtain ⟨n, j, hn, hj, rfl⟩ := split_pos hpos (show k < (t.length - 1) * order by omega)
    obtain ⟨P, hP⟩ := hex n (by omega) r
    rw [hv i hi n (by rw [hqk]; exact w.inRight hn hj) r P hP, hqk]
    exact hP.2 j (by omega)
  refine ⟨f, V, hf, hV, hr, hc, hex, hv, hrep, ?_⟩
  intro i hi n hn hqn r
  have hle : (n + 1) * order ≤ (t.length - 1) * order := Nat.mul_le_mul_right _ (by omega)
  have he' : (n + 1) * order = n * order + order := by ring
  exact hrep i hi (n * order) (by omega) (by rw [hqn, w.bound (by omega)]) r

/-- **C21** Wrong number of data columns, for every option; unknown option. -/
theorem C21_errors (cp : List K) (order : ℕ) (g : GoodScheme cp order) (t : List K) (p : Pdq K)
    (hp : Pdq.new (.ok cp) t order = .ok p) (c : String) :
    (c = "both" ∨ c = "left" ∨ c = "right" → ∃ f, p.interpolator c = .ok f ∧ ∀ x q,
      x.cols ≠ (if c = "both" then p.collocationPoints.length else p.collocationPoints.length - 1) →
        f.call x q = .error .value) ∧
    (¬ (c = "both" ∨ c = "left" ∨ c = "right") → p.interpolator c = .error .value) := by
  have w := Pdq.built_of_ok g hp
  have h2 := w.two
  constructor
  · intro h
    obtain ⟨a, m, hm⟩ : ∃ a m, modeShape order c = some (a, m) := by
      rcases h with rfl | rfl | rfl
      · exact ⟨_, _, rfl⟩
      · exact ⟨_, _, rfl⟩
      · exact ⟨_, _, rfl⟩
    obtain ⟨f, hf, b⟩ := w.interpolator_ok c hm
    refine ⟨f, hf, fun x q hx => ?_⟩
    unfold PdqInterpolator.call
    simp only [b.pdq, b.cont]
    rw [if_pos hx]
  · intro h
    push Not at h
    unfold Pdq.interpolator interpolatorGroups
    rw [w.groups, show t.length - 1 = (t.length - 2) + 1 by omega, List.range_succ_eq_map, List.map_cons,
      List.mapM_cons, if_neg h.1, if_neg h.2.1, if_neg h.2.2]
    rfl

/-! ## C22: the option 'left' -/

/-- **C22** is false: with the data that the option asks for (one column per collocation point but the first), every query
in the last interval, in particular at every collocation point after `t[N-1]`, raises IndexError. -/
theorem C22_left_last_interval_raises (cp : List K) (order : ℕ) (g : GoodScheme cp order) (t : List K) (p : Pdq K)
    (hp : Pdq.new (.ok cp) t order = .ok p) (x : Mat K) (hx : x.cols + 1 = p.collocationPoints.length)
    (q : K) (hq : nd t (t.length - 2) ≤ q) :
    ∃ f, p.interpolator "left" = .ok f ∧ f.call x [q] = .error .index := by
  have w := Pdq.built_of_ok g hp
  have h2 := w.two
  have hpos := g.pos
  rw [w.plen] at hx
  obtain ⟨f, hf, b⟩ := w.interpolator_ok "left" (a := 1) (m := order) rfl
  refine ⟨f, hf, ?_⟩
  have hn : InRight t (t.length - 2) q := ⟨by omega, Or.inr hq, Or.inl (by omega)⟩
  have hi := clip_searchsorted w.asc .right hn
  have hng : t.length - 2 < f.groups.length := by rw [b.groups]; simp; omega
  have he : (t.length - 1) * order = (t.length - 2) * order + order := by
    rw [show t.length - 1 = (t.length - 2) + 1 by omega]; ring
  have hgn : f.groups[t.length - 2] = List.range' ((t.length - 2) * order + 1) order := by simp [b.groups]
  have hat : f.callAt x q = .error .index := by
    unfold PdqInterpolator.callAt
    simp only [b.pdq, w.bounds, hi]
    rw [pyIndex_nat hng, hgn]
    simp only [bind, Except.bind]
    unfold Mat.fancyCols
    rw [if_neg]
    intro hall
    rw [List.all_eq_true] at hall
    have := of_decide_eq_true (hall ((t.length - 1) * order) (by rw [List.mem_range'_1]; omega))
    omega
  unfold PdqInterpolator.call
  simp only [b.pdq, b.cont, w.plen]
  rw [if_neg (by rw [if_neg (by decide)]; omega), List.mapM_cons, hat]
  rfl

/-- **C22** (partial) Outside the last interval the option 'left' returns an interpolating polynomial, but the data are
shifted by one column: the value at collocation point `k` inside an interval is column `k` of the data instead of
column `k - 1` (column 0 belongs to collocation point 1). -/
theorem C22_left_shifted_partial (cp : List K) (order : ℕ) (g : GoodScheme cp order) (t : List K) (p : Pdq K)
    (hp : Pdq.new (.ok cp) t order = .ok p) (x : Mat K) (hx : x.cols + 1 = p.collocationPoints.length)
    (n j : ℕ) (hn : n + 2 < t.length) (hj : 0 < j) (hjo : j < order) :
    ∃ f V, p.interpolator "left" = .ok f ∧ f.call x [nd p.collocationPoints (n * order + j)] = .ok V ∧
      V.rows = x.rows ∧ V.cols = 1 ∧ ∀ r < x.rows, V.e r 0 = x.e r (n * order + j) := by
  have w := Pdq.built_of_ok g hp
  rw [w.plen] at hx
  obtain ⟨f, hf, b⟩ := w.interpolator_ok "left" (a := 1) (m := order) rfl
  have hle : (n + 2) * order ≤ (t.length - 1) * order := Nat.mul_le_mul_right _ (by omega)
  have he : (n + 2) * order = n * order + order + order := by ring
  obtain ⟨V, hV, hr, hc, hv⟩ := b.callAt_ok w (by omega) (by omega) x
    (w.inRight (n := n) (by omega) hjo) (by omega)
  refine ⟨f, Mat.hcat x.rows [V], hf, ?_, rfl, by rw [hcat_cols]; simp [off, hc], ?_⟩
  · unfold PdqInterpolator.call
    simp only [b.pdq, b.cont, w.plen]
    rw [if_neg (by rw [if_neg (by decide)]; omega), List.mapM_cons, hV]
    exact hstack_ok (l := [V]) (by simp) (by simp [hr])
  · intro r _
    have h := hcat_e x.rows [V] (n := 0) (by simp) (j := 0) (by simp [hc]) r
    rw [off_zero] at h
    simp only [Nat.zero_add, List.getElem_cons_zero] at h
    rw [h]
    obtain ⟨P, hP⟩ := exists_interpolates w.points_asc x (c0 := n * order + 1) (m := order) r
      (by rw [w.plen]; omega)
    rw [hv r P hP]
    have := hP.2 (j - 1) (by omega)
    rwa [show n * order + 1 + (j - 1) = n * order + j by omega] at this

/-! ## Non-vacuity and a concrete failure of 'left' -/

/-- The test data of the refutation: two intervals, one inner point per interval (Chebyshev, order 2). -/
example : ∃ p, Pdq.new (.ok ([0, 1 / 2, 1] : List ℚ)) [0, 1, 3] 2 = .ok p ∧ p.collocationPoints.length = 5 ∧
    GoodScheme ([0, 1 / 2, 1] : List ℚ) 2 ∧
    ∃ f, p.interpolator "left" = .ok f ∧
      f.call (⟨1, 4, fun _ j => (j : ℚ)⟩ : Mat ℚ) [3] = .error .index := by
  have g : GoodScheme ([0, 1 / 2, 1] : List ℚ) 2 := by
    refine ⟨rfl, by omega, ?_, rfl, by simp [nd]⟩
    intro i hi
    have : i = 0 ∨ i = 1 := by simp at hi; omega
    rcases this with rfl | rfl <;> norm_num [nd]
  have ha : Ascending ([0, 1, 3] : List ℚ) := by
    intro i hi
    have : i = 0 ∨ i = 1 := by simp at hi; omega
    rcases this with rfl | rfl <;> norm_num [nd]
  obtain ⟨p, hp⟩ := (C17_ctor _ 2 g [0, 1, 3]).mpr ⟨by simp, ha⟩
  have hl : p.collocationPoints.length = 5 := (C17_grid _ 2 g _ p hp).2.2.2.1
  exact ⟨p, hp, hl, g, C22_left_last_interval_raises _ 2 g _ p hp _ (by rw [hl]) 3 (by norm_num [nd])⟩

/-- C21: interpolation of the values 0, 1, 4, 9, 16 at the collocation points 0, 1/2, 1, 2, 3: the value at the collocation point 2 and the
polynomial on the second interval. -/
example : ∃ p f V, Pdq.new (.ok ([0, 1 / 2, 1] : List ℚ)) [0, 1, 3] 2 = .ok p ∧ p.interpolator "both" = .ok f ∧
    f.call (⟨1, 5, fun _ j => (j : ℚ) ^ 2⟩ : Mat ℚ) [2, 5/2] = .ok V ∧ V.e 0 0 = 9 ∧ V.e 0 1 = 49/4 := by
  obtain ⟨p, hp, hl, hpt⟩ := exPdq
  obtain ⟨f, V, h1, -, h3, -, -, -, h7, h8, -⟩ := C21_both _ 2 exGood _ p hp (⟨1, 5, fun _ j => (j : ℚ) ^ 2⟩ : Mat ℚ) hl.symm [2, 5/2] (by simp)
  refine ⟨p, f, V, hp, h1, h3, ?_, ?_⟩
  · rw [h8 0 (by decide) 3 (by decide) (by rw [hpt 3 (by decide)]; norm_num [nd]) 0]
    norm_num
  · rw [h7 1 (by decide) 1 ⟨by decide, .inr (by norm_num [nd]), .inl rfl⟩ 0 (X ^ 2 + C 2 * X + C 1) ⟨?_, ?_⟩]
    · norm_num [nd]
    · refine lt_of_le_of_lt (degree_add_le _ _) (max_lt (lt_of_le_of_lt (degree_add_le _ _) (max_lt ?_ ?_)) ?_)
      · rw [degree_X_pow]; decide
      · exact lt_of_le_of_lt (degree_C_mul_X_le _) (by decide)
      · exact lt_of_le_of_lt degree_C_le (by decide)
    · intro k hk
      have : k = 0 ∨ k = 1 ∨ k = 2 := by omega
      rcases this with rfl | rfl | rfl
      · rw [hpt (1 * 2 + 0) (by decide)]; norm_num [nd]
      · rw [hpt (1 * 2 + 1) (by decide)]; norm_num [nd]
      · rw [hpt (1 * 2 + 2) (by decide)]; norm_num [nd]

/-- C21, 'right': four values, and at the bound 1 the value of the second interval. Five values raise, and so does an unknown option. -/
example : ∃ p f V, Pdq.new (.ok ([0, 1 / 2, 1] : List ℚ)) [0, 1, 3] 2 = .ok p ∧ p.interpolator "right" = .ok f ∧
    f.call (⟨1, 4, fun _ j => (j : ℚ) ^ 2⟩ : Mat ℚ) [1] = .ok V ∧ V.e 0 0 = 4 ∧
    f.call (⟨1, 5, fun _ j => (j : ℚ) ^ 2⟩ : Mat ℚ) [1] = .error .value ∧ p.interpolator "middle" = .error .value := by
  obtain ⟨p, hp, hl, hpt⟩ := exPdq
  obtain ⟨f, V, h1, h2, -, -, -, -, -, h8⟩ := C21_right _ 2 exGood _ p hp (⟨1, 4, fun _ j => (j : ℚ) ^ 2⟩ : Mat ℚ) hl.symm [1] (by simp)
  obtain ⟨f', e1, e2⟩ := (C21_errors _ 2 exGood _ p hp "right").1 (by decide)
  rw [h1] at e1
  cases e1
  refine ⟨p, f, V, hp, h1, h2, ?_, e2 _ _ ?_, (C21_errors _ 2 exGood _ p hp "middle").2 (by decide)⟩
  · rw [h8 0 (by decide) 1 (by decide) (by norm_num [nd]) 0]
    norm_num
  · rw [if_neg (by decide), hl]
    decide

end CE
