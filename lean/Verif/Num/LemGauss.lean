import Verif.Num.PropsSuper
import Verif.Num.PropsReverse
import Mathlib.LinearAlgebra.Dual.Lemmas
import Mathlib.LinearAlgebra.FiniteDimensional.Lemmas
import Mathlib.RingTheory.Polynomial.Basic
import Mathlib.Data.Finset.Sort

/-! # Lemmas for C94: orthogonal polynomials on [0, 1] and their roots -/

open Polynomial

namespace CE

/-- The integral over [0, 1] as a linear functional. -/
noncomputable def pI : ℝ[X] →ₗ[ℝ] ℝ := Polynomial.lsum fun n => ((1 : ℝ) / (n + 1)) • LinearMap.id

theorem pI_derivative (P : ℝ[X]) : pI (derivative P) = P.eval 1 - P.eval 0 := by
  induction P using Polynomial.induction_on' with
  | add p q hp hq => rw [derivative_add, map_add, hp, hq, eval_add, eval_add]; ring
  | monomial n a =>
    rw [derivative_monomial, pI, Polynomial.lsum_apply, Polynomial.sum_monomial_index _ _ (by simp)]
    cases n with
    | zero => simp
    | succ n =>
      have : ((n : ℝ) + 1) ≠ 0 := by positivity
      simp
      field_simp

theorem pI_pos {f : ℝ[X]} (h : ∀ x, 0 ≤ x → x ≤ 1 → 0 ≤ f.eval x) (hf : f ≠ 0) : 0 < pI f := by
  obtain ⟨P, hP⟩ := exists_antiderivative f
  have hm : MonotoneOn (fun x => P.eval x) (Set.Icc 0 1) := by
    refine monotoneOn_of_deriv_nonneg (convex_Icc 0 1) P.continuous.continuousOn P.differentiable.differentiableOn ?_
    intro x hx
    rw [interior_Icc] at hx
    rw [Polynomial.deriv, hP]
    exact h x hx.1.le hx.2.le
  rw [← hP, pI_derivative]
  by_contra hn
  have h1 : P.eval 0 ≤ P.eval 1 := integral_nonneg fun x h0 h1 => by rw [hP]; exact h x h0 h1
  have hconst : ∀ x ∈ Set.Icc (0 : ℝ) 1, (P - C (P.eval 0)).eval x = 0 := by
    intro x hx
    have l1 := hm (Set.left_mem_Icc.2 zero_le_one) hx hx.1
    have l2 := hm hx (Set.right_mem_Icc.2 zero_le_one) hx.2
    simp only at l1 l2
    rw [eval_sub, eval_C]
    linarith
  have hP0 : P - C (P.eval 0) = 0 := eq_zero_of_infinite_isRoot _ ((Set.Icc_infinite zero_lt_one).mono hconst)
  rw [sub_eq_zero.mp hP0, derivative_C] at hP
  exact hf hP.symm

/-- A weight: positive inside the interval. -/
def IsWeight (w : ℝ[X]) : Prop := ∀ x, 0 < x → x < 1 → 0 < w.eval x

theorem IsWeight.nonneg {w : ℝ[X]} (hw : IsWeight w) {x : ℝ} (h0 : 0 ≤ x) (h1 : x ≤ 1) : 0 ≤ w.eval x := by
  have hc : IsClosed {x : ℝ | 0 ≤ w.eval x} := isClosed_le continuous_const w.continuous
  have hs : Set.Ioo (0 : ℝ) 1 ⊆ {x : ℝ | 0 ≤ w.eval x} := fun x hx => (hw x hx.1 hx.2).le
  have := closure_minimal hs hc
  rw [closure_Ioo (by norm_num)] at this
  exact this ⟨h0, h1⟩

theorem IsWeight.ne_zero {w : ℝ[X]} (hw : IsWeight w) : w ≠ 0 := by
  rintro rfl
  have := hw (1 / 2) (by norm_num) (by norm_num)
  simp at this

theorem pI_sq_eq_zero {w : ℝ[X]} (hw : IsWeight w) {q : ℝ[X]} (h : pI (w * q * q) = 0) : q = 0 := by
  by_contra hq
  refine absurd h (pI_pos (fun x h0 h1 => ?_) (mul_ne_zero (mul_ne_zero hw.ne_zero hq) hq)).ne'
  rw [mul_assoc, eval_mul, eval_mul]
  exact mul_nonneg (hw.nonneg h0 h1) (mul_self_nonneg _)

/-- There is a monic polynomial of degree `M` that is orthogonal to all polynomials of smaller degree. -/
theorem exists_orthogonal {w : ℝ[X]} (hw : IsWeight w) (M : ℕ) :
    ∃ p : ℝ[X], p.Monic ∧ p.natDegree = M ∧ ∀ q : ℝ[X], q.degree < M → pI (w * p * q) = 0 := by
  let V := degreeLT ℝ M
  haveI : FiniteDimensional ℝ V := Module.Finite.equiv (degreeLTEquiv ℝ M).symm
  let B : ℝ[X] →ₗ[ℝ] ℝ[X] →ₗ[ℝ] ℝ := LinearMap.mk₂ ℝ (fun q r => pI (w * q * r))
    (fun a b c => by rw [mul_add, add_mul, map_add]) (fun k a b => by rw [mul_smul_comm, smul_mul_assoc, map_smul])
    (fun a b c => by rw [mul_add, map_add]) (fun k a b => by rw [mul_smul_comm, map_smul])
  let Φ : V →ₗ[ℝ] Module.Dual ℝ V := (LinearMap.lcomp ℝ ℝ V.subtype).comp (B.comp V.subtype)
  have hinj : Function.Injective Φ := by
    rw [injective_iff_map_eq_zero]
    intro q hq
    have : Φ q q = 0 := by rw [hq]; rfl
    exact Subtype.ext (pI_sq_eq_zero hw this)
  have hsurj := (LinearMap.injective_iff_surjective_of_finrank_eq_finrank (Subspace.dual_finrank_eq).symm).1 hinj
  obtain ⟨q, hq⟩ := hsurj (LinearMap.lcomp ℝ ℝ V.subtype (B (X ^ M)))
  have hqd : q.1.degree < M := mem_degreeLT.1 q.2
  refine ⟨X ^ M - q.1, monic_X_pow_sub hqd, ?_, ?_⟩
  · rw [natDegree_eq_of_degree_eq_some]
    rw [degree_sub_eq_left_of_degree_lt (by rw [degree_X_pow]; exact hqd), degree_X_pow]
  · intro r hr
    have := LinearMap.congr_fun hq ⟨r, mem_degreeLT.2 hr⟩
    have h1 : pI (w * q.1 * r) = pI (w * X ^ M * r) := this
    rw [mul_sub, sub_mul, map_sub, h1, sub_self]

/-- A polynomial whose roots inside the interval have even multiplicity does not change its sign there. -/
theorem sign_of_even (n : ℕ) : ∀ f : ℝ[X], f.natDegree ≤ n → f ≠ 0 → (∀ a, 0 < a → a < 1 → Even (f.rootMultiplicity a)) →
    (∀ x, 0 < x → x < 1 → 0 ≤ f.eval x) ∨ ∀ x, 0 < x → x < 1 → f.eval x ≤ 0 := by
  induction n using Nat.strong_induction_on with
  | _ n ih =>
  intro f hn hf he
  by_cases hr : ∃ a, 0 < a ∧ a < 1 ∧ f.IsRoot a
  · obtain ⟨a, h0, h1, ha⟩ := hr
    have hpos := (rootMultiplicity_pos hf).2 ha
    have h2 : 2 ≤ f.rootMultiplicity a := by
      obtain ⟨k, hk⟩ := he a h0 h1
      omega
    obtain ⟨g, hg⟩ := (le_rootMultiplicity_iff hf).1 h2
    have hg0 : g ≠ 0 := by
      rintro rfl
      exact hf (by rw [hg, mul_zero])
    have hdeg : f.natDegree = 2 + g.natDegree := by
      rw [hg, natDegree_mul (pow_ne_zero _ (X_sub_C_ne_zero a)) hg0, natDegree_pow, natDegree_X_sub_C]
    have hmul : ∀ b, f.rootMultiplicity b = 2 * (X - C a).rootMultiplicity b + g.rootMultiplicity b := by
      intro b
      rw [hg, rootMultiplicity_mul (by rw [← hg]; exact hf), pow_two, rootMultiplicity_mul (by
        exact mul_ne_zero (X_sub_C_ne_zero a) (X_sub_C_ne_zero a))]
      ring
    have heg : ∀ b, 0 < b → b < 1 → Even (g.rootMultiplicity b) := by
      intro b hb0 hb1
      obtain ⟨k, hk⟩ := he b hb0 hb1
      rw [hmul] at hk
      exact ⟨k - (X - C a).rootMultiplicity b, by omega⟩
    have hev : ∀ x, f.eval x = (x - a) ^ 2 * g.eval x := by
      intro x
      rw [hg, eval_mul, eval_pow, eval_sub, eval_X, eval_C]
    rcases ih (n - 2) (by omega) g (by omega) hg0 heg with h | h
    · left
      intro x hx0 hx1
      rw [hev]
      exact mul_nonneg (sq_nonneg _) (h x hx0 hx1)
    · right
      intro x hx0 hx1
      rw [hev]
      exact mul_nonpos_of_nonneg_of_nonpos (sq_nonneg _) (h x hx0 hx1)
  · by_contra hc
    simp only [not_or, not_forall, not_le] at hc
    obtain ⟨⟨x, hx0, hx1, hx⟩, y, hy0, hy1, hy⟩ := hc
    have hpc : IsPreconnected (Set.Ioo (0 : ℝ) 1) := isPreconnected_Ioo
    obtain ⟨z, hz, hz0⟩ := hpc.intermediate_value (a := x) (b := y) ⟨hx0, hx1⟩ ⟨hy0, hy1⟩ f.continuous.continuousOn ⟨hx.le, hy.le⟩
    exact hr ⟨z, hz.1, hz.2, hz0⟩

/-- The roots of an orthogonal polynomial are distinct and inside the interval. -/
theorem orthogonal_roots {w p : ℝ[X]} (hw : IsWeight w) {M : ℕ} (hm : p.Monic) (hd : p.natDegree = M)
    (ho : ∀ q : ℝ[X], q.degree < M → pI (w * p * q) = 0) :
    ∃ S : Finset ℝ, S.card = M ∧ (∀ a ∈ S, 0 < a ∧ a < 1) ∧ S.prod (fun a => X - C a) = p := by
  classical
  let S := p.roots.toFinset.filter fun a => 0 < a ∧ a < 1 ∧ Odd (p.rootMultiplicity a)
  set q := S.prod fun a => (X - C a : ℝ[X]) with hq
  have hqm : q.Monic := monic_prod_of_monic _ _ fun a _ => monic_X_sub_C a
  have hqd : q.natDegree = S.card := by simp [hq]
  have hmult : ∀ a, q.rootMultiplicity a = if a ∈ S then 1 else 0 := by
    intro a
    rw [← count_roots, hq, roots_prod_X_sub_C]
    exact Multiset.count_eq_of_nodup S.nodup
  have heven : ∀ a, 0 < a → a < 1 → Even ((p * q).rootMultiplicity a) := by
    intro a h0 h1
    rw [rootMultiplicity_mul (mul_ne_zero hm.ne_zero hqm.ne_zero), hmult]
    split_ifs with h
    · have := (Finset.mem_filter.1 h).2.2.2
      exact this.add_one
    · rw [add_zero]
      by_contra ho
      refine h (Finset.mem_filter.2 ⟨?_, h0, h1, Nat.not_even_iff_odd.1 ho⟩)
      rw [Multiset.mem_toFinset, mem_roots hm.ne_zero]
      refine (rootMultiplicity_pos hm.ne_zero).1 (Nat.pos_of_ne_zero fun h => ho ?_)
      rw [h]
      exact Even.zero
  have hcard : M ≤ S.card := by
    by_contra hlt
    have hlt : S.card < M := not_le.1 hlt
    have h0 := ho q (by rw [degree_eq_natDegree hqm.ne_zero, hqd]; exact_mod_cast hlt)
    have hne : w * p * q ≠ 0 := mul_ne_zero (mul_ne_zero hw.ne_zero hm.ne_zero) hqm.ne_zero
    have hext : ∀ f : ℝ[X], (∀ x, 0 < x → x < 1 → 0 ≤ f.eval x) → ∀ x, 0 ≤ x → x ≤ 1 → 0 ≤ f.eval x := by
      intro f hf x hx0 hx1
      have hc : IsClosed {x : ℝ | 0 ≤ f.eval x} := isClosed_le continuous_const f.continuous
      have := closure_minimal (fun x (hx : x ∈ Set.Ioo (0 : ℝ) 1) => hf x hx.1 hx.2) hc
      rw [closure_Ioo (by norm_num)] at this
      exact this ⟨hx0, hx1⟩
    rcases sign_of_even _ (p * q) le_rfl (mul_ne_zero hm.ne_zero hqm.ne_zero) heven with h | h
    · refine absurd h0 (pI_pos (hext _ fun x hx0 hx1 => ?_) hne).ne'
      rw [mul_assoc, eval_mul]
      exact mul_nonneg (hw x hx0 hx1).le (h x hx0 hx1)
    · have h1 : 0 < pI (-(w * p * q)) := by
        refine pI_pos (hext _ fun x hx0 hx1 => ?_) (neg_ne_zero.2 hne)
        rw [mul_assoc, eval_neg, eval_mul]
        exact neg_nonneg.2 (mul_nonpos_of_nonneg_of_nonpos (hw x hx0 hx1).le (h x hx0 hx1))
      rw [map_neg, h0, neg_zero] at h1
      exact lt_irrefl _ h1
  have hdvd : q ∣ p := by
    have hle : S.val ≤ p.roots := by
      rw [Multiset.le_iff_subset S.nodup]
      intro a ha
      exact Multiset.mem_toFinset.1 (Finset.mem_filter.1 ha).1
    rw [hq]
    exact (Multiset.prod_X_sub_C_dvd_iff_le_roots hm.ne_zero S.val).2 hle
  have heq : q = p := (eq_of_monic_of_dvd_of_natDegree_le hqm hm hdvd (by rw [hqd, hd]; exact hcard)).symm
  refine ⟨S, ?_, fun a ha => ?_, heq⟩
  · rw [← hqd, heq, hd]
  · have := (Finset.mem_filter.1 ha).2
    exact ⟨this.1, this.2.1⟩

end CE
