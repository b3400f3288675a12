import Verif.Num.FloatScheme
import Verif.Num.PropsFloatPoly
import Verif.Num.SchemeLemmas

/-!
# The scheme with rounded coefficients: closed form
-/

namespace CE

namespace FltC

variable (f : FltC)

/-- The rounded weights of the tableau for the points `tau`. -/
noncomputable def fA (tau : List ℝ) (i j : ℕ) : ℝ := f.peval (f.polyint (f.lagrangePoly tau j)) (nd tau i)
/-- The rounded weights of the tableau for the points `tau`. -/
noncomputable def fb (tau : List ℝ) (j : ℕ) : ℝ := f.peval (f.polyint (f.lagrangePoly tau j)) 1

/-- Length of interval `n`. -/
noncomputable def len (t : List ℝ) (n : ℕ) : ℝ := f.rnd (nd t (n + 1) - nd t n)

theorem npDiff_length (t : List ℝ) : (f.npDiff t).length = t.length - 1 := by simp [npDiff]

theorem nd_npDiff (t : List ℝ) {n : ℕ} (h : n + 1 < t.length) : nd (f.npDiff t) n = f.len t n := by
  have h1 : n < (f.npDiff t).length := by rw [npDiff_length]; omega
  rw [nd, List.getD_eq_getElem?_getD, List.getElem?_eq_getElem h1]
  simp only [npDiff, len, List.getElem_zipWith, List.getElem_tail, Option.getD_some, nd, List.getD_eq_getElem?_getD,
    List.getElem?_eq_getElem h, List.getElem?_eq_getElem (show n < t.length by omega)]

theorem rnd_zero : f.rnd 0 = 0 := by
  have := f.err 0
  simpa using this

/-- Block `n` of a product with a block-diagonal matrix. -/
theorem sum_kron_diag (v g : ℕ → ℝ) (h : List ℝ) (M n T : ℕ) (hM : 0 < M) (hT : n * M + M ≤ T) :
    ∑ k ∈ Finset.range T, v k * f.rnd ((if k / M = n then nd h (k / M) else 0) * g (k % M))
      = ∑ k ∈ Finset.range M, v (n * M + k) * f.rnd (nd h n * g k) := by
  rw [← sum_block v (fun k => f.rnd (nd h n * g k)) (n * M) M T hT]
  apply Finset.sum_congr rfl
  intro k _
  by_cases hk : k / M = n
  · have h1 : n * M ≤ k := by rw [← hk]; exact Nat.div_mul_le_self k M
    have h2 : k < n * M + M := by
      have := Nat.lt_div_mul_add hM (a := k)
      rw [hk] at this; exact this
    rw [if_pos hk, if_pos ⟨h1, h2⟩, hk]
    congr 3
    rw [← hk]
    have := Nat.div_add_mod k M
    rw [Nat.mul_comm] at this
    congr 1
    omega
  · rw [if_neg hk, if_neg, zero_mul, rnd_zero]
    rintro ⟨h1, h2⟩
    apply hk
    exact Nat.div_eq_of_lt_le h1 (by rw [Nat.succ_mul]; exact h2)

/-- Closed form of the attributes of the scheme. -/
structure Built (fresh : String → ℕ) (t : List ℝ) (M : ℕ) (tdp_fun : Option (ℝ → Mat ℝ)) (rep : Bool)
    (d : DaeObj ℝ) (tau : List ℝ) (F : CsFn ℝ) (s : Scheme ℝ) : Prop extends s.Core fresh t M tdp_fun rep d F where
  tc : ∀ n j, n < t.length - 1 → j < M → nd s.tc (n * M + j) = f.rnd (nd t n + f.rnd (f.len t n * nd tau j))
  X : ∀ env i n j, n < t.length - 1 → j < M → s.X.val env i (n * M + j) = env (fresh "x") i n +
    ∑ k ∈ Finset.range M, env (fresh "K") i (n * M + k) * f.rnd (f.len t n * f.fA tau j k)
  cont : ∀ env i n, n < t.length - 1 → s.eqContinuity.val env i n = env (fresh "x") i n +
    ∑ k ∈ Finset.range M, env (fresh "K") i (n * M + k) * f.rnd (f.len t n * f.fb tau k) - env (fresh "x") i (n + 1)
  q : ∀ env i n, n < t.length - 1 → s.q.val env i (n + 1) = s.q.val env i n +
    f.len t n * ∑ k ∈ Finset.range M, s.quad.val env i (n * M + k) * f.fb tau k
  Q : ∀ env i n j, n < t.length - 1 → j < M → s.Q.val env i (n * M + j) = s.q.val env i n +
    ∑ k ∈ Finset.range M, s.quad.val env i (n * M + k) * f.rnd (f.len t n * f.fA tau j k)

/-- The tableau that the scheme uses. -/
noncomputable def tableau (tau : List ℝ) (M : ℕ) : ButcherTableau ℝ :=
  ⟨NdArray.mat2 M M (f.fA tau), NdArray.vec ((List.range M).map (f.fb tau)), NdArray.vec tau⟩

theorem tableau_b (tau : List ℝ) (M : ℕ) : (f.tableau tau M).b.toCol.rows = M ∧ (f.tableau tau M).b.toCol.cols = 1
    ∧ ∀ k j, k < M → (f.tableau tau M).b.toCol.e k j = f.fb tau k := by
  refine ⟨by simp [tableau, NdArray.vec, NdArray.toCol], rfl, ?_⟩
  intro k j hk
  simp [tableau, NdArray.vec, NdArray.toCol, nd, List.getD_eq_getElem?_getD, hk]

theorem integrateState_ok (idx idK r M : ℕ) (t : List ℝ) (N : ℕ) (hN : t.length = N + 1) (hM : 0 < M) (tau : List ℝ) :
    ∃ X xf, f.integrateState (MXExpr.sym idx r (N + 1)) (MXExpr.sym idK r (N * M)) N M (f.npDiff t) (f.tableau tau M)
        = .ok (X, xf) ∧
      X.rows = r ∧ X.cols = N * M ∧ xf.rows = r ∧ xf.cols = N ∧
      (∀ env i n j, n < N → j < M → X.val env i (n * M + j) = env idx i n +
        ∑ k ∈ Finset.range M, env idK i (n * M + k) * f.rnd (f.len t n * f.fA tau j k)) ∧
      (∀ env i n, n < N → xf.val env i n = env idx i n +
        ∑ k ∈ Finset.range M, env idK i (n * M + k) * f.rnd (f.len t n * f.fb tau k)) := by
  have hdl : (f.npDiff t).length = N := by rw [npDiff_length]; omega
  obtain ⟨b1, b2, b3⟩ := f.tableau_b tau M
  unfold integrateState
  simp only [bind, Except.bind]
  rw [colSlice_ok _ _ _ (by simp [MXExpr.sym])]
  simp only
  rw [mtimes_ok _ _ (by simp [MXExpr.const, kron, Mat.eye, Mat.ones, MXExpr.sym])]
  simp only
  rw [mtimes_ok _ _ (by simp [tableau, MXExpr.const, kron, Mat.diagcat, MXExpr.sym, NdArray.mat2, NdArray.toMat, Mat.T, hdl])]
  simp only
  rw [add_ok _ _ (by simp [MXExpr.sym]) (by simp [tableau, MXExpr.const, kron, Mat.eye, Mat.ones, Mat.diagcat, NdArray.mat2, NdArray.toMat, Mat.T, hdl])]
  simp only
  rw [mtimes_ok _ _ (by simp [MXExpr.const, kron, Mat.diagcat, MXExpr.sym, b1, hdl])]
  simp only
  rw [add_ok _ _ (by simp [MXExpr.sym]) (by simp [MXExpr.const, kron, Mat.diagcat, NdArray.toCol, hdl, MXExpr.sym])]
  simp only
  refine ⟨_, _, rfl, rfl, ?_, rfl, ?_, ?_, ?_⟩
  · simp [MXExpr.const, kron, Mat.eye, Mat.ones]
  · simp [MXExpr.sym]
  · intro env i n j hn hj
    have hd := f.nd_npDiff t (n := n) (by omega)
    rw [← hd]
    simp only [MXExpr.sym, MXExpr.const, kron, Mat.eye, Mat.ones, Mat.diagcat, Mat.T, tableau, NdArray.mat2,
      NdArray.toMat, List.getD_cons_zero, List.getD_cons_succ, div_block hj, mod_block hj, Nat.div_one, mul_one,
      Nat.add_sub_cancel, Nat.zero_add]
    congr 1
    · rw [← sum_pick (fun k => env idx i k) n N hn]
      refine Finset.sum_congr rfl fun k _ => ?_
      by_cases hk : k = n
      · rw [if_pos hk, f.one]
      · rw [if_neg hk, rnd_zero]
    · exact f.sum_kron_diag (fun k => env idK i k) (fun k => f.fA tau j k) (f.npDiff t) M n (N * M) hM (block_le hn)
  · intro env i n hn
    have hd := f.nd_npDiff t (n := n) (by omega)
    rw [← hd]
    simp only [MXExpr.sym, MXExpr.const, kron, Mat.diagcat, b1, b2, Nat.div_one, Nat.mod_one, Nat.zero_add]
    congr 1
    rw [f.sum_kron_diag (fun k => env idK i k) (fun k => (f.tableau tau M).b.toCol.e k 0) (f.npDiff t) M n (N * M) hM (block_le hn)]
    exact Finset.sum_congr rfl fun k hk => by rw [b3 k 0 (Finset.mem_range.mp hk)]

theorem collocationTimes_ok (t : List ℝ) (N : ℕ) (hN : t.length = N + 1) (tau : List ℝ) (M : ℕ) (hM : tau.length = M) :
    (f.collocationTimes t (f.npDiff t) (f.tableau tau M) N).length = N * M ∧
    ∀ n j, n < N → j < M → nd (f.collocationTimes t (f.npDiff t) (f.tableau tau M) N) (n * M + j)
      = f.rnd (nd t n + f.rnd (f.len t n * nd tau j)) := by
  have hc : (f.tableau tau M).c.toList = tau := vec_toList tau
  unfold collocationTimes
  rw [hc]
  constructor
  · rw [List.length_flatten, List.map_map]
    rw [show (List.length ∘ fun n => tau.map fun c => f.rnd (nd t n + f.rnd (nd (f.npDiff t) n * c))) = fun _ => M by
      funext n; simp [hM]]
    simp
  · intro n j hn hj
    rw [nd, List.getD_eq_getElem?_getD, flatten_blocks _ M (by
      intro a ha; obtain ⟨n, _, rfl⟩ := List.mem_map.mp ha; simp [hM]) n j (by simpa using hn) hj]
    simp only [List.getElem_map, List.getElem_range, List.getElem?_map]
    rw [List.getElem?_eq_getElem (show j < tau.length by omega)]
    rw [nd_npDiff f t (by omega)]
    simp [nd, List.getD_eq_getElem?_getD, List.getElem?_eq_getElem (show j < tau.length by omega)]

theorem integrateQuad_ok (nq : ℕ) (quad : MXExpr ℝ) (M N : ℕ) (t : List ℝ) (hN : t.length = N + 1) (hM : 0 < M) (tau : List ℝ)
    (hq : quad.rows = nq) (hc : quad.cols = N * M) :
    ∃ q Q, f.integrateQuad nq quad N M (f.npDiff t) (f.tableau tau M) = .ok (q, Q) ∧
      q.rows = nq ∧ q.cols = N + 1 ∧ Q.rows = nq ∧ Q.cols = N * M ∧ (∀ env i, q.val env i 0 = 0) ∧
      (∀ env i n, n < N → q.val env i (n + 1) = q.val env i n +
        f.len t n * ∑ k ∈ Finset.range M, quad.val env i (n * M + k) * f.fb tau k) ∧
      (∀ env i n j, n < N → j < M → Q.val env i (n * M + j) = q.val env i n +
        ∑ k ∈ Finset.range M, quad.val env i (n * M + k) * f.rnd (f.len t n * f.fA tau j k)) := by
  have hdl : (f.npDiff t).length = N := by rw [npDiff_length]; omega
  obtain ⟨b1, b2, b3⟩ := f.tableau_b tau M
  have hqs := mapM_all_ok (Scheme.qAt nq quad (f.npDiff t) M (f.tableau tau M).b.toCol)
    (qE nq quad (f.npDiff t) M (f.tableau tau M).b.toCol) (List.range (N + 1)) (fun n hn =>
      qAt_ok nq quad (f.npDiff t) M N hq hc _ ⟨b1, b2⟩ n (by have := List.mem_range.mp hn; omega))
  obtain ⟨q, hqq, hr, hcc, hval⟩ := horzcat_ok ((List.range (N + 1)).map
      (qE nq quad (f.npDiff t) M (f.tableau tau M).b.toCol)) (by simp) nq 1
    (by intro a ha; obtain ⟨n, _, rfl⟩ := List.mem_map.mp ha; exact (qE_shape ..).1)
    (by intro a ha; obtain ⟨n, _, rfl⟩ := List.mem_map.mp ha; exact (qE_shape ..).2)
  have hqc : q.cols = N + 1 := by simpa using hcc
  have hqv : ∀ env i n, n ≤ N → q.val env i n = (qE nq quad (f.npDiff t) M (f.tableau tau M).b.toCol n).val env i 0 := by
    intro env i n hn
    have := hval env i n (by simp; omega) 0 (by omega)
    simpa using this
  unfold integrateQuad
  rw [hqs]
  simp only [bind, Except.bind, hqq]
  rw [colSlice_ok _ _ _ (by omega)]
  simp only
  rw [mtimes_ok _ _ (by simp [MXExpr.const, kron, Mat.eye, Mat.ones, hqc])]
  simp only
  rw [mtimes_ok _ _ (by simp [tableau, MXExpr.const, kron, Mat.diagcat, NdArray.mat2, NdArray.toMat, Mat.T, hdl, hc])]
  simp only
  rw [add_ok _ _ (by simp [hr, hq]) (by simp [tableau, MXExpr.const, kron, Mat.eye, Mat.ones, Mat.diagcat, NdArray.mat2, NdArray.toMat, Mat.T, hdl])]
  simp only
  refine ⟨_, _, rfl, hr, hqc, hr, ?_, ?_, ?_, ?_⟩
  · simp [MXExpr.const, kron, Mat.eye, Mat.ones]
  · intro env i
    rw [hqv env i 0 (by omega)]
    rfl
  · intro env i n hn
    rw [hqv env i (n + 1) (by omega), hqv env i n (by omega), ← f.nd_npDiff t (n := n) (by omega)]
    show _ + _ = _
    congr 2
    exact Finset.sum_congr rfl fun k hk => by rw [b3 k 0 (Finset.mem_range.mp hk)]
  · intro env i n j hn hj
    rw [← f.nd_npDiff t (n := n) (by omega)]
    simp only [MXExpr.const, kron, Mat.eye, Mat.ones, Mat.diagcat, Mat.T, tableau, NdArray.mat2,
      NdArray.toMat, List.getD_cons_zero, List.getD_cons_succ, div_block hj, mod_block hj, Nat.div_one, mul_one,
      hqc, hc, Nat.add_sub_cancel, Nat.zero_add]
    congr 1
    · rw [← sum_pick (fun k => q.val env i k) n N hn]
      refine Finset.sum_congr rfl fun k _ => ?_
      by_cases hk : k = n
      · rw [if_pos hk, f.one]
      · rw [if_neg hk, rnd_zero]
    · exact f.sum_kron_diag (fun k => quad.val env i k) (fun k => f.fA tau j k) (f.npDiff t) M n (N * M) hM (block_le hn)

theorem schemeNew_built {fresh freshI : String → ℕ} {casadiPoints : ℕ → String → Except PyErr (List ℝ)}
    {csFunction : List (MXExpr ℝ) → List (MXExpr ℝ) → Except PyErr (CsFn ℝ)}
    {dae : DaeObj ℝ} {t : List ℝ} {order : ℕ} {method : String} {tdp_fun : Option (ℝ → Mat ℝ)}
    {d : DaeObj ℝ} {xdot res : MXExpr ℝ} {tau : List ℝ} {F : CsFn ℝ} (rep : Bool)
    (pre : SchemePre freshI casadiPoints csFunction dae t order method tdp_fun d xdot res tau F) :
    ∃ s, f.schemeNew fresh freshI casadiPoints csFunction dae t order method tdp_fun rep = .ok s ∧
      f.Built fresh t order tdp_fun rep d tau F s := by
  obtain ⟨himpl, wf, hp, hquad, two, pos, hpts, hlen, htf, hfn⟩ := pre
  have htne : t ≠ [] := by rintro rfl; simp at two
  obtain ⟨N, hN⟩ : ∃ N, t.length = N + 1 := ⟨t.length - 1, by omega⟩
  have hNpos : 0 < N := by omega
  have hN' : t.length - 1 = N := by omega
  obtain ⟨U, hU, hUr, hUc, hUv⟩ := inputsU_ok (K := ℝ) (fresh "u") d.nu N order hNpos
  have hbut : f.butcherMethod casadiPoints order method = .ok (f.tableau tau order) := by
    unfold butcherMethod
    rw [hpts]
    have := f.butcherTableau_ok tau
    rw [hlen] at this
    exact this
  obtain ⟨X, xf, hX, hXr, hXc, hfr, hfc, hXv, hfv⟩ := f.integrateState_ok (fresh "x") (fresh "K") d.nx order t N hN pos tau
  obtain ⟨htl, htv⟩ := f.collocationTimes_ok t N hN tau order hlen
  have hNM : 0 < N * order := Nat.mul_pos hNpos pos
  obtain ⟨tdp, hT, hTr, hTc, hTv⟩ := tdpValues_ok tdp_fun d
    (f.collocationTimes t (f.npDiff t) (f.tableau tau order) N) (by intro h; rw [h] at htl; simp at htl; omega) htf
  have hnp : d.np = d.p.rows := by simp [DaeObj.np, MXExpr.numel, hp]
  have hnq : d.nq = d.quad.rows := by simp [DaeObj.nq, MXExpr.numel, hquad]
  obtain ⟨D, Q, hE, hDr, hDc, hQr, hQc, hEv⟩ := evalDae_ok wf hp hquad hfn (N * order) hNM rep
    (.sym (fresh "K") d.nx (N * order)) X (.sym (fresh "Z") d.nz (N * order)) U
    (.sym (fresh "P") d.np (if rep then N * order else 1))
    (.const ⟨1, (f.collocationTimes t (f.npDiff t) (f.tableau tau order) N).length, fun _ j =>
      nd (f.collocationTimes t (f.npDiff t) (f.tableau tau order) N) j⟩) tdp
    ⟨wf.nx, rfl⟩ ⟨hXr.trans wf.nx, hXc⟩ ⟨wf.nz, rfl⟩ ⟨hUr.trans wf.nu, hUc⟩ ⟨hnp, rfl⟩ ⟨rfl, htl⟩ ⟨hTr, by rw [hTc, htl, Nat.mul_comm]⟩
  obtain ⟨q, Qq, hq, hqr, hqc, hQqr, hQqc, hq0, hqs, hQv⟩ := f.integrateQuad_ok d.nq Q order N t hN pos tau (hQr.trans hnq.symm) hQc
  unfold schemeNew
  rw [himpl]
  simp only [bind, Except.bind, hN', hU, hbut, hX]
  rw [if_neg htne, if_neg (by omega)]
  rw [hT]
  simp only
  rw [hE]
  simp only
  rw [colSlice_ok _ _ _ (show 1 + (N + 1 - 1) ≤ N + 1 by omega)]
  simp only
  rw [sub_ok _ _ hfr (show xf.cols = N + 1 - 1 by rw [hfc]; rfl)]
  simp only
  rw [hq]
  refine ⟨_, rfl, ?_⟩
  constructor
  case toCore =>
    constructor
    case N_eq => exact hN'.symm
    case M_eq => rfl
    case t_eq => rfl
    case param => rfl
    case x => rw [hN', ← wf.nx]
    case Kd => rw [hN', ← wf.nx]
    case Z => rw [hN', ← wf.nz]
    case u => rw [hN', ← wf.nu]
    case p => rw [hN', ← hnp]
    case U_shape => rw [hN']; exact ⟨hUr.trans wf.nu, hUc⟩
    case U => rw [hN']; exact hUv
    case tc_len => rw [hN']; exact htl
    case X_shape => rw [hN']; exact ⟨hXr.trans wf.nx, hXc⟩
    case cont_shape => rw [hN']; exact ⟨hfr.trans wf.nx, hfc⟩
    case coll_shape => rw [hN']; exact ⟨hDr, hDc⟩
    case tdp_shape => rw [hN']; exact ⟨hTr, by rw [hTc, htl]⟩
    case tdp => rw [hN']; intro env i c hc hi j hj; exact hTv env i c (by rw [htl]; exact hc) hi j hj
    case out =>
      rw [hN']
      intro env c hc i
      exact hEv env c i
    case quad_shape => rw [hN']; exact ⟨hQr, hQc⟩
    case q_shape => rw [hN']; exact ⟨hqr.trans hnq, hqc⟩
    case q_zero => exact hq0
    case Q_shape => rw [hN']; exact ⟨hQqr.trans hnq, hQqc⟩
  case tc => rw [hN']; exact htv
  case X => rw [hN']; exact hXv
  case cont =>
    rw [hN']
    intro env i n hn
    show xf.val env i n - env (fresh "x") i (1 + n) = _
    rw [hfv env i n hn, Nat.add_comm 1 n]
  case q => rw [hN']; exact hqs
  case Q => rw [hN']; exact hQv

end FltC

end CE
