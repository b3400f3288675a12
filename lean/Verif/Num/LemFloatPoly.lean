import Verif.Num.FloatPoly
import Verif.Num.LemRound
import Verif.Num.PropsFloat
import Verif.Num.PropsButcher

/-! Lemmas about polynomials computed with rounding errors. -/

open Polynomial

namespace CE

open Poly1d

theorem coeff_listPoly (l : List ℝ) (i : ℕ) : (listPoly l).coeff i = if i < l.length then nd l (l.length - 1 - i) else 0 := by
  induction l generalizing i with
  | nil => simp
  | cons c l ih =>
    rw [listPoly_cons, coeff_add, coeff_C_mul, coeff_X_pow, ih, List.length_cons]
    rcases lt_trichotomy i l.length with h | h | h
    · rw [if_neg (by omega), if_pos h, if_pos (by omega), show l.length + 1 - 1 - i = (l.length - 1 - i) + 1 by omega]
      simp [nd]
    · subst h
      simp [nd]
    · rw [if_neg (by omega), if_neg (by omega), if_neg (by omega)]
      simp

theorem sum_map_filter_range (n : ℕ) (P : ℕ → Prop) [DecidablePred P] (g : ℕ → ℝ) :
    (((List.range n).filter fun s => decide (P s)).map g).sum = ∑ s ∈ (Finset.range n).filter P, g s := by
  induction n with
  | zero => simp
  | succ n ih =>
    rw [List.range_succ, List.filter_append, List.map_append, List.sum_append, ih, Finset.range_add_one, Finset.filter_insert]
    by_cases h : P n
    · rw [if_pos h, Finset.sum_insert (by simp)]
      simp [h, add_comm]
    · rw [if_neg h]
      simp [h]

theorem convPairs_length (a b : List ℝ) (k : ℕ) : (convPairs a b k).length ≤ b.length := by
  unfold convPairs
  rw [List.length_map]
  exact (List.length_filter_le _ _).trans (by simp)

theorem convPairs_sum (a b : List ℝ) (F : ℝ → ℝ → ℝ) (h0 : ∀ y, F 0 y = 0) (h1 : ∀ x, F x 0 = 0) (i k : ℕ)
    (hik : i + k + 2 = a.length + b.length) :
    ((convPairs a b k).map fun p => F p.1 p.2).sum =
      ∑ x ∈ Finset.antidiagonal i, F ((listPoly a).coeff x.1) ((listPoly b).coeff x.2) := by
  unfold convPairs
  rw [List.map_map, sum_map_filter_range]
  have : ∑ x ∈ Finset.antidiagonal i, F ((listPoly a).coeff x.1) ((listPoly b).coeff x.2) =
      ∑ x ∈ (Finset.antidiagonal i).filter (fun x => x.1 < a.length ∧ x.2 < b.length),
        F ((listPoly a).coeff x.1) ((listPoly b).coeff x.2) := by
    rw [Finset.sum_filter]
    refine Finset.sum_congr rfl fun x _ => ?_
    split
    · rfl
    · rename_i h
      rw [coeff_listPoly, coeff_listPoly]
      by_cases h2 : x.1 < a.length
      · rw [if_neg (fun h3 => h ⟨h2, h3⟩ : ¬ x.2 < b.length), h1]
      · rw [if_neg h2, h0]
  rw [this]
  refine Finset.sum_nbij' (fun s => (a.length - 1 - (k - s), b.length - 1 - s)) (fun x => b.length - 1 - x.2) ?_ ?_ ?_ ?_ ?_
  · intro s hs
    simp only [Finset.mem_filter, Finset.mem_range, Finset.mem_antidiagonal] at hs ⊢
    omega
  · rintro ⟨x, y⟩ hs
    simp only [Finset.mem_filter, Finset.mem_range, Finset.mem_antidiagonal] at hs ⊢
    omega
  · intro s hs
    simp only [Finset.mem_filter, Finset.mem_range] at hs ⊢
    omega
  · rintro ⟨x, y⟩ hs
    simp only [Finset.mem_filter, Finset.mem_antidiagonal, Prod.mk.injEq] at hs ⊢
    omega
  · intro s hs
    simp only [Finset.mem_filter, Finset.mem_range, Function.comp_apply] at hs ⊢
    rw [coeff_listPoly, coeff_listPoly, if_pos (by omega), if_pos (by omega)]
    congr 2 <;> omega

/-- The coefficients in `l` differ from those of `p` at most by `γ m` times those of `M`, which bound them. -/
def Rounding.CoeffErr (R : Rounding) (m : ℕ) (l : List ℝ) (p M : ℝ[X]) : Prop :=
  ∀ i, |(listPoly l).coeff i - p.coeff i| ≤ R.γ m * M.coeff i ∧ |p.coeff i| ≤ M.coeff i

namespace Rounding

variable {R : Rounding}

theorem CoeffErr.abs_le {m : ℕ} {l : List ℝ} {p M : ℝ[X]} (h : R.CoeffErr m l p M) (i : ℕ) :
    |(listPoly l).coeff i| ≤ (1 + R.γ m) * M.coeff i := by
  have h1 := h i
  have h2 := abs_sub_abs_le_abs_sub ((listPoly l).coeff i) (p.coeff i)
  linarith

theorem CoeffErr.nonneg {m : ℕ} {l : List ℝ} {p M : ℝ[X]} (h : R.CoeffErr m l p M) (i : ℕ) : 0 ≤ M.coeff i :=
  (abs_nonneg _).trans (h i).2

theorem CoeffErr.mono {m k : ℕ} {l : List ℝ} {p M : ℝ[X]} (h : R.CoeffErr m l p M) (hk : m ≤ k) : R.CoeffErr k l p M := fun i =>
  ⟨(h i).1.trans (mul_le_mul_of_nonneg_right (R.γ_mono hk) (h.nonneg i)), (h i).2⟩

theorem CoeffErr.trim {m : ℕ} {l : List ℝ} {p M : ℝ[X]} (h : R.CoeffErr m l p M) : R.CoeffErr m (ofCoeffs l).coef p M := by
  have : listPoly (ofCoeffs l).coef = listPoly l := toPoly_ofCoeffs l
  intro i
  rw [this]
  exact h i

/-- Error of a product of two numbers with errors. -/
theorem mul_err {m k : ℕ} {a b p q M N : ℝ} (h1 : |a - p| ≤ R.γ m * M) (h2 : |p| ≤ M) (h3 : |b - q| ≤ R.γ k * N) (h4 : |q| ≤ N) :
    |a * b - p * q| ≤ R.γ (m + k) * (M * N) ∧ |a * b| ≤ (1 + R.γ (m + k)) * (M * N) := by
  have hM : 0 ≤ M := (abs_nonneg _).trans h2
  have hN : 0 ≤ N := (abs_nonneg _).trans h4
  have ha : |a| ≤ (1 + R.γ m) * M := by
    have := abs_sub_abs_le_abs_sub a p
    linarith
  have hb : |b| ≤ (1 + R.γ k) * N := by
    have := abs_sub_abs_le_abs_sub b q
    linarith
  have g := R.one_add_γ_add m k
  have gm := R.γ_nonneg m
  have gk := R.γ_nonneg k
  have key : |a * b - p * q| ≤ R.γ (m + k) * (M * N) := by
    rw [show a * b - p * q = (a - p) * b + p * (b - q) by ring]
    refine (abs_add_le _ _).trans ?_
    rw [abs_mul, abs_mul]
    have e1 := mul_le_mul h1 hb (abs_nonneg _) (mul_nonneg gm hM)
    have e2 := mul_le_mul h2 h3 (abs_nonneg _) hM
    have e3 : R.γ (m + k) = R.γ m * (1 + R.γ k) + R.γ k := by linarith
    rw [e3]
    linarith
  refine ⟨key, ?_⟩
  rw [abs_mul]
  refine (mul_le_mul ha hb (abs_nonneg _) (by positivity)).trans (le_of_eq ?_)
  rw [g]
  ring

end Rounding

namespace FltC

variable {f : FltC}

/-- Product of polynomials. -/
theorem conv_err {a b : List ℝ} {p q M N : ℝ[X]} {m k c : ℕ} (ha : f.CoeffErr m a p M) (hb : f.CoeffErr k b q N) (hc : b.length ≤ c) :
    f.CoeffErr (m + k + c) ((List.range (a.length + b.length - 1)).map (f.conv a b)) (p * q) (M * N) := by
  intro i
  set S := ∑ x ∈ Finset.antidiagonal i, (listPoly a).coeff x.1 * (listPoly b).coeff x.2 with hS
  have hMN : (M * N).coeff i = ∑ x ∈ Finset.antidiagonal i, M.coeff x.1 * N.coeff x.2 := coeff_mul _ _ _
  have hpq : (p * q).coeff i = ∑ x ∈ Finset.antidiagonal i, p.coeff x.1 * q.coeff x.2 := coeff_mul _ _ _
  have hMN0 : 0 ≤ (M * N).coeff i := by
    rw [hMN]
    exact Finset.sum_nonneg fun x _ => mul_nonneg (ha.nonneg _) (hb.nonneg _)
  have e1 : |S - (p * q).coeff i| ≤ f.γ (m + k) * (M * N).coeff i := by
    rw [hpq, hS, ← Finset.sum_sub_distrib, hMN, Finset.mul_sum]
    exact (Finset.abs_sum_le_sum_abs _ _).trans (Finset.sum_le_sum fun x _ => (Rounding.mul_err (ha _).1 (ha _).2 (hb _).1 (hb _).2).1)
  have e2 : ∑ x ∈ Finset.antidiagonal i, |(listPoly a).coeff x.1 * (listPoly b).coeff x.2| ≤ (1 + f.γ (m + k)) * (M * N).coeff i := by
    rw [hMN, Finset.mul_sum]
    exact Finset.sum_le_sum fun x _ => (Rounding.mul_err (ha _).1 (ha _).2 (hb _).1 (hb _).2).2
  have e3 : |(listPoly ((List.range (a.length + b.length - 1)).map (f.conv a b))).coeff i - S| ≤ f.γ c * ((1 + f.γ (m + k)) * (M * N).coeff i) := by
    rw [coeff_listPoly, List.length_map, List.length_range]
    split
    · rename_i h
      rw [nd_map_range _ (by omega)]
      obtain ⟨j, hj⟩ : ∃ j, a.length + b.length - 1 - 1 - i = j := ⟨_, rfl⟩
      rw [hj]
      have d := f.dotOf_err (f.conv_spec a b j)
      by_cases hab : a.length + b.length < 2
      · omega
      rw [convPairs_sum a b (fun x y => x * y) (by simp) (by simp) i j (by omega),
        convPairs_sum a b (fun x y => |x * y|) (by simp) (by simp) i j (by omega)] at d
      refine d.trans (mul_le_mul (f.γ_mono ((convPairs_length _ _ _).trans hc)) e2 (Finset.sum_nonneg fun _ _ => abs_nonneg _) (f.γ_nonneg _))
    · rename_i h
      have : S = 0 := by
        rw [hS]
        refine Finset.sum_eq_zero fun x hx => ?_
        rw [Finset.mem_antidiagonal] at hx
        rw [coeff_listPoly, coeff_listPoly]
        by_cases h2 : x.1 < a.length
        · rw [if_neg (by omega : ¬ x.2 < b.length), mul_zero]
        · rw [if_neg h2, zero_mul]
      rw [this, sub_zero, abs_zero]
      exact mul_nonneg (f.γ_nonneg _) (mul_nonneg (by linarith [f.γ_nonneg (m + k)]) hMN0)
  constructor
  · refine (abs_sub_le _ S _).trans ((add_le_add e3 e1).trans (le_of_eq ?_))
    have := f.one_add_γ_add (m + k) c
    rw [show f.γ (m + k + c) = (1 + f.γ (m + k)) * (1 + f.γ c) - 1 by linarith]
    ring
  · rw [hpq, hMN]
    refine (Finset.abs_sum_le_sum_abs _ _).trans (Finset.sum_le_sum fun x _ => ?_)
    rw [abs_mul]
    exact mul_le_mul (ha _).2 (hb _).2 (abs_nonneg _) (ha.nonneg _)

theorem ofCoeffs_length (l : List ℝ) : (ofCoeffs l).coef.length ≤ max 1 l.length := by
  have h := (List.dropWhile_sublist (fun a : ℝ => decide (a = 0)) (l := l)).length_le
  unfold ofCoeffs
  split
  · simp
  · exact h.trans (le_max_right _ _)

/-- Evaluation by Horner's rule. -/
theorem horner_err (x : ℝ) (l : List ℝ) :
    |l.foldl (fun y c => f.rnd (f.rnd (y * x) + c)) 0 - (listPoly l).eval x| ≤ f.γ (2 * l.length) * (listPoly (l.map abs)).eval |x| ∧
      |(listPoly l).eval x| ≤ (listPoly (l.map abs)).eval |x| := by
  induction l using List.reverseRecOn with
  | nil => simp
  | append_singleton l c ih =>
    rw [List.foldl_append, List.foldl_cons, List.foldl_nil, List.length_append, List.length_singleton, List.map_append]
    set y := l.foldl (fun y c => f.rnd (f.rnd (y * x) + c)) 0
    have e : ∀ (l : List ℝ) (c x : ℝ), (listPoly (l ++ [c])).eval x = (listPoly l).eval x * x + c := by
      intro l c x
      rw [listPoly_append]
      simp [listPoly_cons]
    rw [List.map_singleton, e, e]
    set P := (listPoly l).eval x
    set T := (listPoly (l.map abs)).eval |x|
    have step : ∀ (m : ℕ) (s S T : ℝ), |S| ≤ T → |s - S| ≤ f.γ m * T → |f.rnd s - S| ≤ f.γ (m + 1) * T := by
      intro m s S T h1 h2
      have e3 := f.err s
      have e5 : |s| ≤ (1 + f.γ m) * T := by
        have := abs_sub_abs_le_abs_sub s S
        linarith
      have e7 : f.γ (m + 1) = f.γ 1 * (1 + f.γ m) + f.γ m := by
        have := f.one_add_γ_add m 1
        linarith
      have e8 : f.u * |s| ≤ f.γ 1 * ((1 + f.γ m) * T) := mul_le_mul f.u_le_γ e5 (abs_nonneg _) (f.γ_nonneg 1)
      rw [show f.rnd s - S = (f.rnd s - s) + (s - S) by ring, e7]
      refine (abs_add_le _ _).trans ?_
      linarith
    have h1 : |P * x| ≤ T * |x| := by
      rw [abs_mul]
      exact mul_le_mul_of_nonneg_right ih.2 (abs_nonneg _)
    have h2 : |f.rnd (y * x) - P * x| ≤ f.γ (2 * l.length + 1) * (T * |x|) := by
      refine step _ _ _ _ h1 ?_
      rw [← sub_mul, abs_mul, ← mul_assoc]
      exact mul_le_mul_of_nonneg_right ih.1 (abs_nonneg _)
    have h3 : |P * x + c| ≤ T * |x| + |c| := (abs_add_le _ _).trans (add_le_add h1 le_rfl)
    rw [show 2 * (l.length + 1) = 2 * l.length + 1 + 1 by ring]
    refine ⟨step _ _ _ _ h3 ?_, h3⟩
    rw [add_sub_add_right_eq_sub, mul_add]
    have := mul_nonneg (f.γ_nonneg (2 * l.length + 1)) (abs_nonneg c)
    linarith

/-- A factor of a Lagrange polynomial. -/
theorem factor_err (t s : ℝ) : f.CoeffErr 2 (f.pdivs (ofCoeffs [1, -s]) (f.rnd (t - s))).coef (C (t - s)⁻¹ * (X - C s)) (C |t - s|⁻¹ * (X + C |s|)) := by
  have h1 : (ofCoeffs [1, -s]).coef = [1, -s] := by simp [ofCoeffs]
  unfold pdivs
  rw [h1]
  refine Rounding.CoeffErr.trim fun i => ?_
  have hd : f.Rel 1 (f.rnd (t - s)) (t - s) := Rounding.Rel.rnd _
  have hq : ∀ c : ℝ, |f.rnd (c / f.rnd (t - s)) - c / (t - s)| ≤ f.γ 2 * (|t - s|⁻¹ * |c|) := by
    intro c
    have h2 := ((Rounding.Rel.rnd (R := f.toRounding) (c / f.rnd (t - s))).trans ((Rounding.Rel.refl c).div hd)).abs_sub
    rw [abs_div, div_eq_inv_mul |c|] at h2
    exact h2
  simp only [List.map_cons, List.map_nil, listPoly_cons, listPoly_nil, List.length_cons, List.length_nil, zero_add, pow_one, pow_zero, mul_one,
    add_zero]
  rcases i with _ | _ | i
  · have := hq (-s)
    rw [abs_neg] at this
    simp only [coeff_add, coeff_C_mul, coeff_X_zero, mul_zero, coeff_C_zero, zero_add, coeff_sub, zero_sub]
    refine ⟨?_, ?_⟩
    · rw [← div_eq_inv_mul]
      exact this
    · rw [abs_mul, abs_neg, abs_inv]
  · have := hq 1
    rw [abs_one, mul_one] at this
    have hC : ∀ c : ℝ, (C c).coeff 1 = 0 := fun c => by rw [coeff_C]; simp
    simp only [zero_add, coeff_add, coeff_C_mul, coeff_X_one, mul_one, hC, add_zero, coeff_sub, sub_zero]
    refine ⟨?_, ?_⟩
    · rw [← one_div (t - s)]
      exact this
    · rw [abs_inv]
  · simp [coeff_X, coeff_C]

theorem factor_length (t s : ℝ) : (f.pdivs (ofCoeffs [1, -s]) (f.rnd (t - s))).coef.length ≤ 2 := by
  have h1 : (ofCoeffs [1, -s]).coef = [1, -s] := by simp [ofCoeffs]
  unfold pdivs
  rw [h1]
  exact (ofCoeffs_length _).trans (by simp)

/-- The Lagrange polynomials. -/
theorem lagrange_err (tau : List ℝ) (j : ℕ) (hj : j < tau.length) :
    f.CoeffErr (4 * (tau.length - 1)) (f.lagrangePoly tau j).coef (Lagrange.basis (Finset.range tau.length) (nd tau) j)
      (∏ r ∈ (Finset.range tau.length).erase j, (C |nd tau j - nd tau r|⁻¹ * (X + C |nd tau r|))) ∧
    (f.lagrangePoly tau j).coef.length ≤ tau.length := by
  have key : ∀ (L : List ℕ) (p0 : Poly1d ℝ) (P M : ℝ[X]) (m c : ℕ), f.CoeffErr m p0.coef P M → p0.coef.length ≤ c → 1 ≤ c →
      f.CoeffErr (m + 4 * L.length)
        (L.foldl (fun p r => f.pmul p (f.pdivs (ofCoeffs [1, -(nd tau r)]) (f.rnd (nd tau j - nd tau r)))) p0).coef
        (P * (L.map fun r => C (nd tau j - nd tau r)⁻¹ * (X - C (nd tau r))).prod)
        (M * (L.map fun r => C |nd tau j - nd tau r|⁻¹ * (X + C |nd tau r|)).prod) ∧
      (L.foldl (fun p r => f.pmul p (f.pdivs (ofCoeffs [1, -(nd tau r)]) (f.rnd (nd tau j - nd tau r)))) p0).coef.length ≤ c + L.length := by
    intro L
    induction L with
    | nil =>
      intro p0 P M m c h1 h2 _
      simpa using ⟨h1, h2⟩
    | cons r L ih =>
      intro p0 P M m c h1 h2 h3
      have e := conv_err h1 (factor_err (f := f) (nd tau j) (nd tau r)) (factor_length (f := f) (nd tau j) (nd tau r))
      obtain ⟨a, b⟩ := ih (f.pmul p0 (f.pdivs (ofCoeffs [1, -(nd tau r)]) (f.rnd (nd tau j - nd tau r)))) _ _ _ (c + 1) e.trim (by
        unfold pmul
        refine (ofCoeffs_length _).trans ?_
        rw [List.length_map, List.length_range]
        have := factor_length (f := f) (nd tau j) (nd tau r)
        omega) (by omega)
      rw [List.foldl_cons, List.map_cons, List.map_cons, List.prod_cons, List.prod_cons, ← mul_assoc P, ← mul_assoc M, List.length_cons]
      rw [show m + 4 * (L.length + 1) = m + 2 + 2 + 4 * L.length by ring, show c + (L.length + 1) = c + 1 + L.length by ring]
      exact ⟨a, b⟩
  have h1 : (ofCoeffs [(1 : ℝ)]).coef = [1] := by simp [ofCoeffs]
  have h0 : f.CoeffErr 0 (ofCoeffs [(1 : ℝ)]).coef 1 1 := by
    intro i
    rw [h1]
    rcases i with _ | i <;> simp [listPoly_cons, f.γ_zero, coeff_one]
  obtain ⟨a, b⟩ := key ((List.range tau.length).filter (fun i => decide (i ≠ j))) (ofCoeffs [1]) 1 1 0 1 h0 (by rw [h1]; simp) le_rfl
  rw [Flt.length_filter_ne hj, List.foldl_filter] at a b
  simp only [decide_eq_true_eq] at a b
  refine ⟨?_, le_trans b (by omega)⟩
  rw [one_mul, one_mul, list_range_filter_prod, list_range_filter_prod, zero_add] at a
  exact a

theorem eval_eq_sum_coeff (p : ℝ[X]) {n : ℕ} (h : p.natDegree < n) (x : ℝ) : p.eval x = ∑ i ∈ Finset.range n, p.coeff i * x ^ i :=
  eval_eq_sum_range' h x

/-- Evaluation of a polynomial whose coefficients carry errors. -/
theorem peval_err {p : Poly1d ℝ} {P M : ℝ[X]} {m c : ℕ} (h : f.CoeffErr m p.coef P M) (hc : p.coef.length ≤ c) (x : ℝ) :
    |f.peval p x - P.eval x| ≤ f.γ (m + 2 * c) * M.eval |x| := by
  obtain ⟨n, h1, h2, h3, h4⟩ : ∃ n, P.natDegree < n ∧ M.natDegree < n ∧ (listPoly p.coef).natDegree < n ∧
      (listPoly (p.coef.map abs)).natDegree < n := by
    refine ⟨max (max P.natDegree M.natDegree) (max (listPoly p.coef).natDegree (listPoly (p.coef.map abs)).natDegree) + 1, ?_, ?_, ?_, ?_⟩ <;>
      simp
  have hx := fun i : ℕ => pow_nonneg (abs_nonneg x) i
  have e1 : |(listPoly p.coef).eval x - P.eval x| ≤ f.γ m * M.eval |x| := by
    rw [eval_eq_sum_coeff _ h1, eval_eq_sum_coeff _ h3, eval_eq_sum_coeff _ h2, ← Finset.sum_sub_distrib, Finset.mul_sum]
    refine (Finset.abs_sum_le_sum_abs _ _).trans (Finset.sum_le_sum fun i _ => ?_)
    rw [← sub_mul, abs_mul, abs_pow, ← mul_assoc]
    exact mul_le_mul_of_nonneg_right (h i).1 (hx i)
  have e2 : (listPoly (p.coef.map abs)).eval |x| ≤ (1 + f.γ m) * M.eval |x| := by
    rw [eval_eq_sum_coeff _ h4, eval_eq_sum_coeff _ h2, Finset.mul_sum]
    refine Finset.sum_le_sum fun i _ => ?_
    rw [← mul_assoc]
    refine mul_le_mul_of_nonneg_right (le_trans (le_of_eq ?_) (h.abs_le i)) (hx i)
    rw [coeff_listPoly, coeff_listPoly, List.length_map]
    split
    · rw [nd_eq_getElem (by rw [List.length_map]; omega), nd_eq_getElem (by omega)]
      simp
    · simp
  have e3 := (horner_err (f := f) x p.coef).1
  have e4 : 0 ≤ (listPoly (p.coef.map abs)).eval |x| := (abs_nonneg _).trans (horner_err (f := f) x p.coef).2
  have e5 := mul_le_mul (f.γ_mono (Nat.mul_le_mul_left 2 hc)) e2 e4 (f.γ_nonneg _)
  refine (abs_sub_le _ ((listPoly p.coef).eval x) _).trans ?_
  have := f.one_add_γ_add m (2 * c)
  rw [show f.γ (m + 2 * c) = (1 + f.γ m) * (1 + f.γ (2 * c)) - 1 by linarith]
  refine (add_le_add (e3.trans e5) e1).trans (le_of_eq ?_)
  ring

/-- Integration. -/
theorem polyint_err {p : Poly1d ℝ} {P M P' M' : ℝ[X]} {m : ℕ} (h : f.CoeffErr m p.coef P M) (hP : derivative P' = P) (hP0 : P'.eval 0 = 0)
    (hM : derivative M' = M) (hM0 : M'.eval 0 = 0) : f.CoeffErr (m + 1) (f.polyint p).coef P' M' := by
  unfold polyint
  refine Rounding.CoeffErr.trim fun i => ?_
  rw [← coeff_zero_eq_eval_zero] at hP0 hM0
  set Z := List.zipWith (fun c k => f.rnd (c / k)) p.coef ((List.range p.coef.length).reverse.map fun i => ((i + 1 : ℕ) : ℝ)) with hZ
  have hZl : Z.length = p.coef.length := by simp [hZ]
  rw [listPoly_append]
  rcases i with _ | i
  · rw [hP0, hM0]
    simp [listPoly_cons]
  · have e1 : (listPoly Z * X ^ [(0 : ℝ)].length + listPoly [(0 : ℝ)]).coeff (i + 1) = (listPoly Z).coeff i := by
      simp [listPoly_cons]
    have hi : (0 : ℝ) < (i + 1 : ℕ) := by positivity
    have e2 : P'.coeff (i + 1) = P.coeff i / (i + 1 : ℕ) := by
      rw [← hP, coeff_derivative]
      push_cast
      field_simp
    have e3 : M'.coeff (i + 1) = M.coeff i / (i + 1 : ℕ) := by
      rw [← hM, coeff_derivative]
      push_cast
      field_simp
    have e4 : f.Rel 1 ((listPoly Z).coeff i) ((listPoly p.coef).coeff i / (i + 1 : ℕ)) := by
      rw [coeff_listPoly, coeff_listPoly, hZl]
      split
      · rename_i hlt
        have : nd Z (p.coef.length - 1 - i) = f.rnd (nd p.coef (p.coef.length - 1 - i) / (i + 1 : ℕ)) := by
          rw [nd_eq_getElem (by omega), nd_eq_getElem (by omega)]
          simp only [hZ, List.getElem_zipWith, List.getElem_map, List.getElem_reverse, List.getElem_range, List.length_range]
          rw [show p.coef.length - 1 - (p.coef.length - 1 - i) = i by omega]
        rw [this]
        exact Rounding.Rel.rnd _
      · rw [zero_div]
        exact (Rounding.Rel.refl 0).mono (by omega)
    rw [e1, e2, e3, abs_div, abs_of_pos hi]
    refine ⟨?_, (div_le_div_iff_of_pos_right hi).mpr (h i).2⟩
    have e5 := e4.abs_sub
    rw [abs_div, abs_of_pos hi] at e5
    have e6 := (div_le_div_iff_of_pos_right hi).mpr (h.abs_le i)
    have e7 := mul_le_mul_of_nonneg_left e6 (f.γ_nonneg 1)
    have e8 : |(listPoly p.coef).coeff i / (i + 1 : ℕ) - P.coeff i / (i + 1 : ℕ)| ≤ f.γ m * M.coeff i / (i + 1 : ℕ) := by
      rw [← sub_div, abs_div, abs_of_pos hi]
      exact (div_le_div_iff_of_pos_right hi).mpr (h i).1
    refine (abs_sub_le _ ((listPoly p.coef).coeff i / (i + 1 : ℕ)) _).trans ((add_le_add (e5.trans e7) e8).trans (le_of_eq ?_))
    have := f.one_add_γ_add m 1
    rw [show f.γ (m + 1) = (1 + f.γ m) * (1 + f.γ 1) - 1 by linarith]
    ring

theorem polyint_length (p : Poly1d ℝ) : (f.polyint p).coef.length ≤ p.coef.length + 1 := by
  unfold polyint
  refine (ofCoeffs_length _).trans ?_
  simp

end FltC

end CE
