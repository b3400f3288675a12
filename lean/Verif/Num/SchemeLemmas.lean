import Verif.Num.Scheme
import Verif.Num.PdqLemmas
import Verif.Num.PropsButcher
import Verif.Num.PropsDae

/-!
# Closed form of the collocation scheme
-/

namespace CE

variable {K : Type} [Field K]

theorem mapM_all_ok {α β : Type} (g : α → Except PyErr β) (f : α → β) (l : List α) (h : ∀ a ∈ l, g a = .ok (f a)) :
    l.mapM g = .ok (l.map f) := by
  induction l with
  | nil => rfl
  | cons a l ih =>
    rw [List.mapM_cons, h a (by simp), ih (fun m hm => h m (by simp [hm]))]
    rfl

theorem horzcat_ok (l : List (MXExpr K)) (hne : l ≠ []) (R w : ℕ) (hr : ∀ a ∈ l, a.rows = R) (hc : ∀ a ∈ l, a.cols = w) :
    ∃ e, MXExpr.horzcat l = .ok e ∧ e.rows = R ∧ e.cols = l.length * w ∧
      ∀ env i n (hn : n < l.length) j, j < w → e.val env i (n * w + j) = (l[n]).val env i j := by
  have hsum : ∀ l : List (MXExpr K), (∀ a ∈ l, a.cols = w) → (l.map (·.cols)).sum = l.length * w := by
    intro l h
    induction l with
    | nil => simp
    | cons a l ih =>
      rw [List.map_cons, List.sum_cons, ih (fun m hm => h m (by simp [hm])), h a (by simp), List.length_cons]; ring
  cases l with
  | nil => exact absurd rfl hne
  | cons a l =>
    unfold MXExpr.horzcat
    simp only
    rw [if_pos]
    swap
    · rw [List.all_eq_true]
      intro b hb
      simp [hr a (by simp), hr b (by simp [hb])]
    refine ⟨_, rfl, hr a (by simp), hsum _ hc, ?_⟩
    intro env i n hn j hj
    have hlen : ((a :: l).map (·.at' env)).length = (a :: l).length := by simp
    have hoff : off Mat.cols ((a :: l).map (·.at' env)) n = n * w := by
      apply off_const
      · intro A hA
        obtain ⟨b, hb, rfl⟩ := List.mem_map.mp hA
        exact hc b hb
      · rw [hlen]; omega
    have := hcat_e a.rows ((a :: l).map (·.at' env)) (n := n) (by rw [hlen]; exact hn) (j := j) (by
      rw [List.getElem_map]; show j < ((a :: l)[n]).cols; rw [hc _ (List.getElem_mem hn)]; exact hj) i
    rw [hoff] at this
    show (Mat.hcat a.rows ((a :: l).map (·.at' env))).e i (n * w + j) = _
    rw [this, List.getElem_map]
    rfl

/-- Block `n` of a product with a block-diagonal matrix. -/
theorem sum_kron_diag (f g : ℕ → K) (h : List K) (M n T : ℕ) (hM : 0 < M) (hT : n * M + M ≤ T) :
    ∑ k ∈ Finset.range T, f k * ((if k / M = n then nd h (k / M) else 0) * g (k % M))
      = nd h n * ∑ k ∈ Finset.range M, f (n * M + k) * g k := by
  have := sum_block f (fun k => nd h n * g k) (n * M) M T hT
  rw [Finset.mul_sum]
  rw [show ∑ k ∈ Finset.range M, nd h n * (f (n * M + k) * g k) = ∑ k ∈ Finset.range M, f (n * M + k) * (nd h n * g k) from
    Finset.sum_congr rfl fun k _ => by ring]
  rw [← this]
  apply Finset.sum_congr rfl
  intro k _
  by_cases hk : k / M = n
  · have h1 : n * M ≤ k := by rw [← hk]; exact Nat.div_mul_le_self k M
    have h2 : k < n * M + M := by
      have := Nat.lt_div_mul_add hM (a := k)
      rw [hk] at this; exact this
    have h3 : k % M = k - n * M := by
      have := Nat.div_add_mod k M
      rw [hk, Nat.mul_comm] at this; omega
    rw [if_pos hk, if_pos ⟨h1, h2⟩, hk, h3]
  · rw [if_neg hk, if_neg]
    · simp
    · rintro ⟨h1, h2⟩
      apply hk
      rw [Nat.div_eq_of_lt_le]
      · exact h1
      · rw [Nat.succ_mul]; exact h2

theorem sum_pick (f : ℕ → K) (n N : ℕ) (hn : n < N) :
    ∑ k ∈ Finset.range N, f k * (if k = n then 1 else 0) = f n := by
  rw [Finset.sum_eq_single n]
  · simp
  · intro k _ hk; simp [hk]
  · intro h; exact absurd (Finset.mem_range.mpr hn) h

theorem div_block {M n j : ℕ} (hj : j < M) : (n * M + j) / M = n := by
  rw [Nat.mul_comm, Nat.mul_add_div (by omega), Nat.div_eq_of_lt hj, Nat.add_zero]

theorem mod_block {M n j : ℕ} (hj : j < M) : (n * M + j) % M = j := by
  rw [Nat.mul_comm, Nat.mul_add_mod, Nat.mod_eq_of_lt hj]

theorem block_le {N M n : ℕ} (hn : n < N) : n * M + M ≤ N * M := by
  have := Nat.mul_le_mul_right M (show n + 1 ≤ N from hn)
  rw [Nat.succ_mul] at this; exact this

theorem block_lt {N M n j : ℕ} (hn : n < N) (hj : j < M) : n * M + j < N * M := by
  have := block_le (M := M) hn
  omega

theorem npDiff_length (t : List K) : (npDiff t).length = t.length - 1 := by
  simp [npDiff]

theorem nd_npDiff (t : List K) {n : ℕ} (h : n + 1 < t.length) : nd (npDiff t) n = nd t (n + 1) - nd t n := by
  have h1 : n < (npDiff t).length := by rw [npDiff_length]; omega
  rw [nd, List.getD_eq_getElem?_getD, List.getElem?_eq_getElem h1]
  simp only [npDiff, List.getElem_zipWith, List.getElem_tail, Option.getD_some, nd, List.getD_eq_getElem?_getD,
    List.getElem?_eq_getElem h, List.getElem?_eq_getElem (show n < t.length by omega)]

/-! ## Hypotheses and closed form -/

/-- Column `c` of the value of an expression. -/
def MXExpr.col (e : MXExpr K) (env : Env K) (c : ℕ) : Mat K := (e.at' env).colSlice (c * 1) 1

/-- Block `c` of width `w` of the value of an expression. -/
def MXExpr.blk (e : MXExpr K) (env : Env K) (w c : ℕ) : Mat K := (e.at' env).colSlice (c * w) w

/-- Shapes of an accepted implicit model. -/
structure ImplicitWF (d : DaeObj K) (xdot res : MXExpr K) : Prop where
  kind : d.kind = .implicit xdot res
  x : d.x.cols = 1
  z : d.z.cols = 1
  u : d.u.cols = 1
  t : d.t.rows = 1 ∧ d.t.cols = 1
  xdot_cols : xdot.cols = 1
  xdot_rows : xdot.rows = d.x.rows
  res_cols : res.cols = 1
  res_rows : res.rows = d.x.rows + d.z.rows

namespace ImplicitWF
variable {d : DaeObj K} {xdot res : MXExpr K} (w : ImplicitWF d xdot res)
include w
theorem nx : d.nx = d.x.rows := by simp [DaeObj.nx, MXExpr.numel, w.x]
theorem nz : d.nz = d.z.rows := by simp [DaeObj.nz, MXExpr.numel, w.z]
theorem nu : d.nu = d.u.rows := by simp [DaeObj.nu, MXExpr.numel, w.u]
end ImplicitWF

/-- What the caller of `CollocationScheme(dae, t, order, method, tdp_fun=...)` has to provide: a model that has an
implicit form `d` (with residual `res` and derivative `xdot`), with column-shaped parameter and quadrature; at least one
interval and one collocation point; a time-dependent parameter function that gives matrices of the right size (or no
time-dependent parameter).  `tau` are the collocation points and `F` the function that CasADi builds. -/
structure SchemePre (freshI : String → ℕ) (casadiPoints : ℕ → String → Except PyErr (List K))
    (csFunction : List (MXExpr K) → List (MXExpr K) → Except PyErr (CsFn K))
    (dae : DaeObj K) (t : List K) (order : ℕ) (method : String) (tdp_fun : Option (K → Mat K))
    (d : DaeObj K) (xdot res : MXExpr K) (tau : List K) (F : CsFn K) : Prop where
  impl : dae.makeImplicit freshI = .ok d
  wf : ImplicitWF d xdot res
  p : d.p.cols = 1
  quad : d.quad.cols = 1
  two : 2 ≤ t.length
  pos : 0 < order
  points : casadiPoints order method = .ok tau
  len : tau.length = order
  tdpFun : match tdp_fun with
    | none => d.tdp.rows = 0 ∧ d.tdp.cols = 1
    | some f => ∀ s, (f s).rows = d.tdp.rows ∧ (f s).cols = d.tdp.cols
  fn : csFunction [xdot, d.x, d.z, d.u, d.p, d.t, d.tdp] [res, d.quad] = .ok F

/-- The value of the time-dependent parameter at a time. -/
def tdpAt (tdp_fun : Option (K → Mat K)) (s : K) : Mat K :=
  match tdp_fun with
  | none => ⟨0, 1, fun _ _ => 0⟩
  | some f => f s

theorem colSlice_ok (e : MXExpr K) (a n : ℕ) (h : a + n ≤ e.cols) :
    e.colSlice a n = .ok ⟨e.rows, n, false, fun env i j => e.val env i (a + j)⟩ := if_pos h

theorem mtimes_ok (a b : MXExpr K) (h : a.cols = b.rows) :
    a.mtimes b = .ok ⟨a.rows, b.cols, false, fun env i j => ∑ k ∈ Finset.range a.cols, a.val env i k * b.val env k j⟩ :=
  if_pos h

theorem add_ok (a b : MXExpr K) (h1 : a.rows = b.rows) (h2 : a.cols = b.cols) :
    a.add b = .ok ⟨a.rows, a.cols, false, fun env i j => a.val env i j + b.val env i j⟩ := if_pos ⟨h1, h2⟩

theorem sub_ok (a b : MXExpr K) (h1 : a.rows = b.rows) (h2 : a.cols = b.cols) :
    a.sub b = .ok ⟨a.rows, a.cols, false, fun env i j => a.val env i j - b.val env i j⟩ := if_pos ⟨h1, h2⟩

/-- Closed form of `Scheme.qAt`. -/
def qE (nq : ℕ) (quad : MXExpr K) (h : List K) (M : ℕ) (b : Mat K) : ℕ → MXExpr K
  | 0 => .const ⟨nq, 1, fun _ _ => 0⟩
  | n + 1 => ⟨(qE nq quad h M b n).rows, (qE nq quad h M b n).cols, false, fun env i j =>
      (qE nq quad h M b n).val env i j + nd h n * ∑ k ∈ Finset.range M, quad.val env i (n * M + k) * b.e k j⟩

theorem qE_shape (nq : ℕ) (quad : MXExpr K) (h : List K) (M : ℕ) (b : Mat K) (n : ℕ) :
    (qE nq quad h M b n).rows = nq ∧ (qE nq quad h M b n).cols = 1 := by
  induction n with
  | zero => exact ⟨rfl, rfl⟩
  | succ n ih => exact ih

theorem qAt_ok (nq : ℕ) (quad : MXExpr K) (h : List K) (M N : ℕ) (hq : quad.rows = nq)
    (hc : quad.cols = N * M) (b : Mat K) (hb : b.rows = M ∧ b.cols = 1) (n : ℕ) (hn : n ≤ N) :
    Scheme.qAt nq quad h M b n = .ok (qE nq quad h M b n) := by
  induction n with
  | zero => rfl
  | succ n ih =>
    unfold Scheme.qAt
    rw [ih (by omega)]
    simp only [Except.bind, bind]
    rw [colSlice_ok _ _ _ (by rw [hc]; exact block_le hn)]
    simp only
    rw [mtimes_ok _ _ hb.1.symm]
    simp only
    rw [add_ok _ _ (by rw [(qE_shape ..).1]; exact hq.symm) (by rw [(qE_shape ..).2]; exact hb.2.symm)]
    rfl

variable [DecidableEq K]

/-- The weights of the tableau for the points `tau`. -/
def wA (tau : List K) (i j : ℕ) : K := ((butcherPoly tau j).polyint).eval (nd tau i)
/-- The weights of the tableau for the points `tau`. -/
def wb (tau : List K) (j : ℕ) : K := ((butcherPoly tau j).polyint).eval 1

/-- Those attributes of the scheme that do not depend on the coefficients of the method. -/
structure Scheme.Core (fresh : String → ℕ) (t : List K) (M : ℕ) (tdp_fun : Option (K → Mat K)) (rep : Bool)
    (d : DaeObj K) (F : CsFn K) (s : Scheme K) : Prop where
  N_eq : s.N = t.length - 1
  M_eq : s.M = M
  t_eq : s.t = t
  x : s.x = .sym (fresh "x") d.x.rows (t.length - 1 + 1)
  Kd : s.Kd = .sym (fresh "K") d.x.rows ((t.length - 1) * M)
  Z : s.Z = .sym (fresh "Z") d.z.rows ((t.length - 1) * M)
  u : s.u = .sym (fresh "u") d.u.rows (t.length - 1)
  p : s.p = .sym (fresh "P") d.p.rows (if rep then (t.length - 1) * M else 1)
  U_shape : s.U.rows = d.u.rows ∧ s.U.cols = (t.length - 1) * M
  U : ∀ env i n j, n < t.length - 1 → j < M → s.U.val env i (n * M + j) = env (fresh "u") i n
  tc_len : s.tc.length = (t.length - 1) * M
  X_shape : s.X.rows = d.x.rows ∧ s.X.cols = (t.length - 1) * M
  cont_shape : s.eqContinuity.rows = d.x.rows ∧ s.eqContinuity.cols = t.length - 1
  param : s.eqParam = s.p.diffCols
  coll_shape : s.eqCollocation.rows = d.x.rows + d.z.rows ∧ s.eqCollocation.cols = (t.length - 1) * M
  tdp_shape : s.tdp.rows = d.tdp.rows ∧ s.tdp.cols = (t.length - 1) * M * d.tdp.cols
  tdp : ∀ env i c, c < (t.length - 1) * M → i < d.tdp.rows → ∀ j < d.tdp.cols,
    s.tdp.val env i (c * d.tdp.cols + j) = (tdpAt tdp_fun (nd s.tc c)).e i j
  out : ∀ env c, c < (t.length - 1) * M → ∀ i, 
    let r := F [s.Kd.col env c, s.X.col env c, s.Z.col env c, s.U.col env c,
      if rep then s.p.col env c else s.p.at' env, ⟨1, 1, fun _ j => nd s.tc (c * 1 + j)⟩, s.tdp.blk env d.tdp.cols c]
    s.eqCollocation.val env i c = (r.getD 0 ⟨0, 0, fun _ _ => 0⟩).e i 0 ∧
    s.quad.val env i c = (r.getD 1 ⟨0, 0, fun _ _ => 0⟩).e i 0
  quad_shape : s.quad.rows = d.quad.rows ∧ s.quad.cols = (t.length - 1) * M
  q_shape : s.q.rows = d.quad.rows ∧ s.q.cols = t.length - 1 + 1
  q_zero : ∀ env i, s.q.val env i 0 = 0
  Q_shape : s.Q.rows = d.quad.rows ∧ s.Q.cols = (t.length - 1) * M

/-- Closed form of the attributes of the scheme. -/
structure Scheme.Built (fresh : String → ℕ) (t : List K) (M : ℕ) (tdp_fun : Option (K → Mat K)) (rep : Bool)
    (d : DaeObj K) (xdot res : MXExpr K) (tau : List K) (F : CsFn K) (s : Scheme K) : Prop extends
    s.Core fresh t M tdp_fun rep d F where
  butcher_c : s.butcher.c.toList = tau
  tc : ∀ n j, n < t.length - 1 → j < M → nd s.tc (n * M + j) = nd t n + (nd t (n + 1) - nd t n) * nd tau j
  X : ∀ env i n j, n < t.length - 1 → j < M → s.X.val env i (n * M + j) = env (fresh "x") i n +
    (nd t (n + 1) - nd t n) * ∑ k ∈ Finset.range M, env (fresh "K") i (n * M + k) * wA tau j k
  cont : ∀ env i n, n < t.length - 1 → s.eqContinuity.val env i n = env (fresh "x") i n +
    (nd t (n + 1) - nd t n) * ∑ k ∈ Finset.range M, env (fresh "K") i (n * M + k) * wb tau k - env (fresh "x") i (n + 1)
  q : ∀ env i n, n < t.length - 1 → s.q.val env i (n + 1) = s.q.val env i n +
    (nd t (n + 1) - nd t n) * ∑ k ∈ Finset.range M, s.quad.val env i (n * M + k) * wb tau k
  Q : ∀ env i n j, n < t.length - 1 → j < M → s.Q.val env i (n * M + j) = s.q.val env i n +
    (nd t (n + 1) - nd t n) * ∑ k ∈ Finset.range M, s.quad.val env i (n * M + k) * wA tau j k

/-- The tableau that the scheme uses. -/
def schemeTableau (tau : List K) (M : ℕ) : ButcherTableau K :=
  ⟨NdArray.mat2 M M (wA tau), NdArray.vec ((List.range M).map (wb tau)), NdArray.vec tau⟩

theorem vec_toList (tau : List K) : (NdArray.vec tau).toList = tau := by
  unfold NdArray.toList NdArray.vec
  refine List.ext_getElem (by simp) ?_
  intro i h1 h2
  simp [nd, List.getD_eq_getElem?_getD, List.getElem?_eq_getElem h2]

theorem schemeTableau_b (tau : List K) (M : ℕ) : (schemeTableau tau M).b.toCol.rows = M ∧ (schemeTableau tau M).b.toCol.cols = 1
    ∧ ∀ k j, k < M → (schemeTableau tau M).b.toCol.e k j = wb tau k := by
  refine ⟨by simp [schemeTableau, NdArray.vec, NdArray.toCol], rfl, ?_⟩
  intro k j hk
  simp [schemeTableau, NdArray.vec, NdArray.toCol, nd, List.getD_eq_getElem?_getD, hk]

theorem inputsU_ok (id r N M : ℕ) (hN : 0 < N) : ∃ U, Scheme.inputsU (MXExpr.sym id r N : MXExpr K) N M = .ok U ∧
    U.rows = r ∧ U.cols = N * M ∧ ∀ env i n j, n < N → j < M → U.val env i (n * M + j) = env id i n := by
  have hu : (List.range N).mapM (fun n => do
      let c ← (MXExpr.sym id r N : MXExpr K).colSlice n 1
      pure (c.repmatCols M)) = .ok ((List.range N).map fun n =>
        (⟨r, 1 * M, false, fun env i j => env id i (n + j % 1)⟩ : MXExpr K)) := by
    apply mapM_all_ok
    intro n hn
    rw [colSlice_ok _ _ _ (by have := List.mem_range.mp hn; simp only [MXExpr.sym]; omega)]
    rfl
  obtain ⟨U, hU, hUr, hUc, hUv⟩ := horzcat_ok ((List.range N).map fun n =>
        (⟨r, 1 * M, false, fun env i j => env id i (n + j % 1)⟩ : MXExpr K)) (by simp; omega) r M
    (by intro a ha; obtain ⟨n, _, rfl⟩ := List.mem_map.mp ha; rfl)
    (by intro a ha; obtain ⟨n, _, rfl⟩ := List.mem_map.mp ha; exact Nat.one_mul _)
  refine ⟨U, ?_, hUr, by simpa using hUc, ?_⟩
  · unfold Scheme.inputsU
    rw [hu]
    exact hU
  · intro env i n j hn hj
    rw [hUv env i n (by simpa using hn) j hj]
    simp [Nat.mod_one]

theorem integrateState_ok (idx idK r M : ℕ) (t : List K) (N : ℕ) (hN : t.length = N + 1) (hM : 0 < M) (tau : List K) :
    ∃ X xf, Scheme.integrateState (MXExpr.sym idx r (N + 1)) (MXExpr.sym idK r (N * M)) N M (npDiff t) (schemeTableau tau M)
        = .ok (X, xf) ∧
      X.rows = r ∧ X.cols = N * M ∧ xf.rows = r ∧ xf.cols = N ∧
      (∀ env i n j, n < N → j < M → X.val env i (n * M + j) = env idx i n +
        (nd t (n + 1) - nd t n) * ∑ k ∈ Finset.range M, env idK i (n * M + k) * wA tau j k) ∧
      (∀ env i n, n < N → xf.val env i n = env idx i n +
        (nd t (n + 1) - nd t n) * ∑ k ∈ Finset.range M, env idK i (n * M + k) * wb tau k) := by
  have hdl : (npDiff t).length = N := by rw [npDiff_length]; omega
  obtain ⟨b1, b2, b3⟩ := schemeTableau_b tau M
  unfold Scheme.integrateState
  simp only [bind, Except.bind]
  rw [colSlice_ok _ _ _ (by simp [MXExpr.sym])]
  simp only
  rw [mtimes_ok _ _ (by simp [MXExpr.const, Mat.kron, Mat.eye, Mat.ones, MXExpr.sym])]
  simp only
  rw [mtimes_ok _ _ (by simp [schemeTableau, MXExpr.const, Mat.kron, Mat.diagcat, MXExpr.sym, NdArray.mat2, NdArray.toMat, Mat.T, hdl])]
  simp only
  rw [add_ok _ _ (by simp [MXExpr.sym]) (by simp [schemeTableau, MXExpr.const, Mat.kron, Mat.eye, Mat.ones, Mat.diagcat, NdArray.mat2, NdArray.toMat, Mat.T, hdl])]
  simp only
  rw [mtimes_ok _ _ (by simp [MXExpr.const, Mat.kron, Mat.diagcat, MXExpr.sym, b1, hdl])]
  simp only
  rw [add_ok _ _ (by simp [MXExpr.sym]) (by simp [MXExpr.const, Mat.kron, Mat.diagcat, NdArray.toCol, hdl, MXExpr.sym])]
  simp only
  refine ⟨_, _, rfl, rfl, ?_, rfl, ?_, ?_, ?_⟩
  · simp [MXExpr.const, Mat.kron, Mat.eye, Mat.ones]
  · simp [MXExpr.sym]
  · intro env i n j hn hj
    have hd := nd_npDiff t (n := n) (by omega)
    rw [← hd]
    simp only [MXExpr.sym, MXExpr.const, Mat.kron, Mat.eye, Mat.ones, Mat.diagcat, Mat.T, schemeTableau, NdArray.mat2,
      NdArray.toMat, List.getD_cons_zero, List.getD_cons_succ, div_block hj, mod_block hj, Nat.div_one, mul_one,
      Nat.add_sub_cancel, Nat.zero_add]
    congr 1
    · exact sum_pick (fun k => env idx i k) n N hn
    · exact sum_kron_diag (fun k => env idK i k) (fun k => wA tau j k) (npDiff t) M n (N * M) hM (block_le hn)
  · intro env i n hn
    have hd := nd_npDiff t (n := n) (by omega)
    rw [← hd]
    simp only [MXExpr.sym, MXExpr.const, Mat.kron, Mat.diagcat, b1, b2, Nat.div_one, Nat.mod_one, Nat.zero_add]
    congr 1
    rw [sum_kron_diag (fun k => env idK i k) (fun k => (schemeTableau tau M).b.toCol.e k 0) (npDiff t) M n (N * M) hM (block_le hn)]
    congr 1
    exact Finset.sum_congr rfl fun k hk => by rw [b3 k 0 (Finset.mem_range.mp hk)]

theorem flatten_blocks {α : Type} (l : List (List α)) (M : ℕ) (h : ∀ a ∈ l, a.length = M) (n j : ℕ) (hn : n < l.length)
    (hj : j < M) : l.flatten[n * M + j]? = (l[n])[j]? := by
  induction l generalizing n with
  | nil => simp at hn
  | cons a l ih =>
    rw [List.flatten_cons]
    cases n with
    | zero => rw [List.getElem?_append_left (by rw [h a (by simp)]; omega)]; simp
    | succ n =>
      have ha := h a (by simp)
      rw [List.getElem?_append_right (by rw [ha, Nat.succ_mul]; omega)]
      rw [show (n + 1) * M + j - a.length = n * M + j by rw [ha, Nat.succ_mul]; omega]
      rw [ih (fun b hb => h b (by simp [hb])) n (by simpa using hn)]
      simp

theorem collocationTimes_ok (t : List K) (N : ℕ) (hN : t.length = N + 1) (tau : List K) (M : ℕ) (hM : tau.length = M) :
    (Scheme.collocationTimes t (npDiff t) (schemeTableau tau M) N).length = N * M ∧
    ∀ n j, n < N → j < M → nd (Scheme.collocationTimes t (npDiff t) (schemeTableau tau M) N) (n * M + j)
      = nd t n + (nd t (n + 1) - nd t n) * nd tau j := by
  have hc : (schemeTableau tau M).c.toList = tau := vec_toList tau
  unfold Scheme.collocationTimes
  rw [hc]
  constructor
  · rw [List.length_flatten, List.map_map]
    rw [show (List.length ∘ fun n => tau.map fun c => nd t n + nd (npDiff t) n * c) = fun _ => M by
      funext n; simp [hM]]
    simp
  · intro n j hn hj
    rw [nd, List.getD_eq_getElem?_getD, flatten_blocks _ M (by
      intro a ha; obtain ⟨n, _, rfl⟩ := List.mem_map.mp ha; simp [hM]) n j (by simpa using hn) hj]
    simp only [List.getElem_map, List.getElem_range, List.getElem?_map]
    rw [List.getElem?_eq_getElem (show j < tau.length by omega)]
    rw [nd_npDiff t (by omega)]
    simp [nd, List.getD_eq_getElem?_getD, List.getElem?_eq_getElem (show j < tau.length by omega)]

theorem tdpValues_ok (tdp_fun : Option (K → Mat K)) (d : DaeObj K) (tc : List K) (hne : tc ≠ [])
    (htf : match tdp_fun with
      | none => d.tdp.rows = 0 ∧ d.tdp.cols = 1
      | some f => ∀ s, (f s).rows = d.tdp.rows ∧ (f s).cols = d.tdp.cols) :
    ∃ v, Scheme.tdpValues tdp_fun d tc = .ok v ∧ v.rows = d.tdp.rows ∧ v.cols = tc.length * d.tdp.cols ∧
      ∀ env i c, c < tc.length → i < d.tdp.rows → ∀ j < d.tdp.cols,
        v.val env i (c * d.tdp.cols + j) = (tdpAt tdp_fun (nd tc c)).e i j := by
  cases tdp_fun with
  | none =>
    obtain ⟨h0, h1⟩ : d.tdp.rows = 0 ∧ d.tdp.cols = 1 := htf
    refine ⟨_, if_neg (by simp [DaeObj.ntdp, MXExpr.numel, h0]), h0.symm, by simp [MXExpr.const, h1], ?_⟩
    intro env i c _ hi
    omega
  | some f =>
    simp only at htf
    obtain ⟨v, hv, hr, hcc, hval⟩ := horzcat_ok (tc.map fun s => MXExpr.const (f s)) (by simpa using hne) d.tdp.rows d.tdp.cols
      (by intro a ha; obtain ⟨s, _, rfl⟩ := List.mem_map.mp ha; exact (htf s).1)
      (by intro a ha; obtain ⟨s, _, rfl⟩ := List.mem_map.mp ha; exact (htf s).2)
    refine ⟨v, hv, hr, by simpa using hcc, ?_⟩
    intro env i c hcl _ j hj
    rw [hval env i c (by simpa using hcl) j hj]
    simp [MXExpr.const, tdpAt, nd, List.getD_eq_getElem?_getD, List.getElem?_eq_getElem hcl]

theorem evalDae_ok {csFunction : List (MXExpr K) → List (MXExpr K) → Except PyErr (CsFn K)} {d : DaeObj K}
    {xdot res : MXExpr K} {F : CsFn K} (wf : ImplicitWF d xdot res) (hp : d.p.cols = 1)
    (hquad : d.quad.cols = 1) (hfn : csFunction [xdot, d.x, d.z, d.u, d.p, d.t, d.tdp] [res, d.quad] = .ok F)
    (n : ℕ) (hn : 0 < n) (rep : Bool) (Ks X Z U p tc tdp : MXExpr K)
    (h1 : Ks.rows = d.x.rows ∧ Ks.cols = n) (h2 : X.rows = d.x.rows ∧ X.cols = n) (h3 : Z.rows = d.z.rows ∧ Z.cols = n)
    (h4 : U.rows = d.u.rows ∧ U.cols = n) (h5 : p.rows = d.p.rows ∧ p.cols = if rep then n else 1)
    (h6 : tc.rows = 1 ∧ tc.cols = n) (h7 : tdp.rows = d.tdp.rows ∧ tdp.cols = d.tdp.cols * n) :
    ∃ D Q, Scheme.evalDae csFunction d n rep [Ks, X, Z, U, p, tc, tdp] = .ok (D, Q) ∧
      D.rows = d.x.rows + d.z.rows ∧ D.cols = n ∧ Q.rows = d.quad.rows ∧ Q.cols = n ∧
      ∀ env c i,
        let r := F [Ks.col env c, X.col env c, Z.col env c, U.col env c,
          if rep then p.col env c else p.at' env, tc.col env c, tdp.blk env d.tdp.cols c]
        D.val env i c = (r.getD 0 ⟨0, 0, fun _ _ => 0⟩).e i 0 ∧ Q.val env i c = (r.getD 1 ⟨0, 0, fun _ _ => 0⟩).e i 0 := by
  have hins : ["xdot", "x", "z", "u", "p", "t", "tdp"].mapM d.getattr = .ok [xdot, d.x, d.z, d.u, d.p, d.t, d.tdp] := by
    simp [List.mapM_cons, DaeObj.getattr, wf.kind, bind, Except.bind, pure, Except.pure]
  have houts : ["dae", "quad"].mapM d.getattr = .ok [res, d.quad] := by
    simp [List.mapM_cons, DaeObj.getattr, wf.kind, bind, Except.bind, pure, Except.pure]
  unfold Scheme.evalDae DaeObj.createFunction
  simp only [hins, houts, bind, Except.bind, hfn]
  unfold mapCall
  rw [if_neg (by omega), if_pos]
  swap
  · simp only [List.zip_cons_cons, List.zipWith_cons_cons, List.zip_nil_right, List.zipWith_nil_right, List.all_cons, List.all_nil, id,
      mapShapeOk, Bool.and_true, Bool.and_eq_true, decide_eq_true_eq, wf.xdot_rows, wf.xdot_cols, wf.x, wf.z, wf.u, wf.t, hp,
      h1, h2, h3, h4, h5, h6, h7]
    cases rep <;> simp
  refine ⟨_, _, rfl, ?_⟩
  refine ⟨wf.res_rows, ?_, rfl, ?_, ?_⟩
  · show res.cols * n = n; rw [wf.res_cols, Nat.one_mul]
  · show d.quad.cols * n = n; rw [hquad, Nat.one_mul]
  · intro env c i
    simp only [mapResult, wf.res_cols, hquad, Nat.div_one, Nat.mod_one, List.zip_cons_cons, List.zipWith_cons_cons,
      List.zip_nil_right, List.zipWith_nil_right, mapBlock, wf.xdot_cols, wf.x, wf.z, wf.u, wf.t, hp, MXExpr.col, MXExpr.blk]
    cases rep <;> simp

theorem integrateQuad_ok (nq : ℕ) (quad : MXExpr K) (M N : ℕ) (t : List K) (hN : t.length = N + 1) (hM : 0 < M) (tau : List K)
    (hq : quad.rows = nq) (hc : quad.cols = N * M) :
    ∃ q Q, Scheme.integrateQuad nq quad N M (npDiff t) (schemeTableau tau M) = .ok (q, Q) ∧
      q.rows = nq ∧ q.cols = N + 1 ∧ Q.rows = nq ∧ Q.cols = N * M ∧ (∀ env i, q.val env i 0 = 0) ∧
      (∀ env i n, n < N → q.val env i (n + 1) = q.val env i n +
        (nd t (n + 1) - nd t n) * ∑ k ∈ Finset.range M, quad.val env i (n * M + k) * wb tau k) ∧
      (∀ env i n j, n < N → j < M → Q.val env i (n * M + j) = q.val env i n +
        (nd t (n + 1) - nd t n) * ∑ k ∈ Finset.range M, quad.val env i (n * M + k) * wA tau j k) := by
  have hdl : (npDiff t).length = N := by rw [npDiff_length]; omega
  obtain ⟨b1, b2, b3⟩ := schemeTableau_b tau M
  have hqs := mapM_all_ok (Scheme.qAt nq quad (npDiff t) M (schemeTableau tau M).b.toCol)
    (qE nq quad (npDiff t) M (schemeTableau tau M).b.toCol) (List.range (N + 1)) (fun n hn =>
      qAt_ok nq quad (npDiff t) M N hq hc _ ⟨b1, b2⟩ n (by have := List.mem_range.mp hn; omega))
  obtain ⟨q, hqq, hr, hcc, hval⟩ := horzcat_ok ((List.range (N + 1)).map
      (qE nq quad (npDiff t) M (schemeTableau tau M).b.toCol)) (by simp) nq 1
    (by intro a ha; obtain ⟨n, _, rfl⟩ := List.mem_map.mp ha; exact (qE_shape ..).1)
    (by intro a ha; obtain ⟨n, _, rfl⟩ := List.mem_map.mp ha; exact (qE_shape ..).2)
  have hqc : q.cols = N + 1 := by simpa using hcc
  have hqv : ∀ env i n, n ≤ N → q.val env i n = (qE nq quad (npDiff t) M (schemeTableau tau M).b.toCol n).val env i 0 := by
    intro env i n hn
    have := hval env i n (by simp; omega) 0 (by omega)
    simpa using this
  unfold Scheme.integrateQuad
  rw [hqs]
  simp only [bind, Except.bind, hqq]
  rw [colSlice_ok _ _ _ (by omega)]
  simp only
  rw [mtimes_ok _ _ (by simp [MXExpr.const, Mat.kron, Mat.eye, Mat.ones, hqc])]
  simp only
  rw [mtimes_ok _ _ (by simp [schemeTableau, MXExpr.const, Mat.kron, Mat.diagcat, NdArray.mat2, NdArray.toMat, Mat.T, hdl, hc])]
  simp only
  rw [add_ok _ _ (by simp [hr, hq]) (by simp [schemeTableau, MXExpr.const, Mat.kron, Mat.eye, Mat.ones, Mat.diagcat, NdArray.mat2, NdArray.toMat, Mat.T, hdl])]
  simp only
  refine ⟨_, _, rfl, hr, hqc, hr, ?_, ?_, ?_, ?_⟩
  · simp [MXExpr.const, Mat.kron, Mat.eye, Mat.ones]
  · intro env i
    rw [hqv env i 0 (by omega)]
    rfl
  · intro env i n hn
    rw [hqv env i (n + 1) (by omega), hqv env i n (by omega), ← nd_npDiff t (n := n) (by omega)]
    show _ + _ = _
    congr 2
    exact Finset.sum_congr rfl fun k hk => by rw [b3 k 0 (Finset.mem_range.mp hk)]
  · intro env i n j hn hj
    rw [← nd_npDiff t (n := n) (by omega)]
    simp only [MXExpr.const, Mat.kron, Mat.eye, Mat.ones, Mat.diagcat, Mat.T, schemeTableau, NdArray.mat2,
      NdArray.toMat, List.getD_cons_zero, List.getD_cons_succ, div_block hj, mod_block hj, Nat.div_one, mul_one,
      hqc, hc, Nat.add_sub_cancel, Nat.zero_add]
    congr 1
    · exact sum_pick (fun k => q.val env i k) n N hn
    · exact sum_kron_diag (fun k => quad.val env i k) (fun k => wA tau j k) (npDiff t) M n (N * M) hM (block_le hn)

theorem Scheme.new_built [CharZero K] {fresh freshI : String → ℕ} {casadiPoints : ℕ → String → Except PyErr (List K)}
    {csFunction : List (MXExpr K) → List (MXExpr K) → Except PyErr (CsFn K)}
    {dae : DaeObj K} {t : List K} {order : ℕ} {method : String} {tdp_fun : Option (K → Mat K)}
    {d : DaeObj K} {xdot res : MXExpr K} {tau : List K} {F : CsFn K} (rep : Bool)
    (pre : SchemePre freshI casadiPoints csFunction dae t order method tdp_fun d xdot res tau F) :
    ∃ s, Scheme.new fresh freshI casadiPoints csFunction dae t order method tdp_fun rep = .ok s ∧
      s.Built fresh t order tdp_fun rep d xdot res tau F := by
  obtain ⟨himpl, wf, hp, hquad, two, pos, hpts, hlen, htf, hfn⟩ := pre
  have htne : t ≠ [] := by rintro rfl; simp at two
  obtain ⟨N, hN⟩ : ∃ N, t.length = N + 1 := ⟨t.length - 1, by omega⟩
  have hNpos : 0 < N := by omega
  have hN' : t.length - 1 = N := by omega
  obtain ⟨U, hU, hUr, hUc, hUv⟩ := inputsU_ok (K := K) (fresh "u") d.nu N order hNpos
  have hbut : butcherTableuForCollocationMethod casadiPoints order method = .ok (schemeTableau tau order) := by
    unfold butcherTableuForCollocationMethod
    rw [hpts]
    have := butcher_ok tau
    rw [hlen] at this
    exact this
  obtain ⟨X, xf, hX, hXr, hXc, hfr, hfc, hXv, hfv⟩ := integrateState_ok (fresh "x") (fresh "K") d.nx order t N hN pos tau
  obtain ⟨htl, htv⟩ := collocationTimes_ok t N hN tau order hlen
  have hNM : 0 < N * order := Nat.mul_pos hNpos pos
  obtain ⟨tdp, hT, hTr, hTc, hTv⟩ := tdpValues_ok tdp_fun d
    (Scheme.collocationTimes t (npDiff t) (schemeTableau tau order) N) (by intro h; rw [h] at htl; simp at htl; omega) htf
  have hnp : d.np = d.p.rows := by simp [DaeObj.np, MXExpr.numel, hp]
  have hnq : d.nq = d.quad.rows := by simp [DaeObj.nq, MXExpr.numel, hquad]
  obtain ⟨D, Q, hE, hDr, hDc, hQr, hQc, hEv⟩ := evalDae_ok wf hp hquad hfn (N * order) hNM rep
    (.sym (fresh "K") d.nx (N * order)) X (.sym (fresh "Z") d.nz (N * order)) U
    (.sym (fresh "P") d.np (if rep then N * order else 1))
    (.const ⟨1, (Scheme.collocationTimes t (npDiff t) (schemeTableau tau order) N).length, fun _ j =>
      nd (Scheme.collocationTimes t (npDiff t) (schemeTableau tau order) N) j⟩) tdp
    ⟨wf.nx, rfl⟩ ⟨hXr.trans wf.nx, hXc⟩ ⟨wf.nz, rfl⟩ ⟨hUr.trans wf.nu, hUc⟩ ⟨hnp, rfl⟩ ⟨rfl, htl⟩ ⟨hTr, by rw [hTc, htl, Nat.mul_comm]⟩
  obtain ⟨q, Qq, hq, hqr, hqc, hQqr, hQqc, hq0, hqs, hQv⟩ := integrateQuad_ok d.nq Q order N t hN pos tau (hQr.trans hnq.symm) hQc
  unfold Scheme.new
  rw [himpl]
  simp only [bind, Except.bind, hN', hU, hbut, hX]
  rw [if_neg htne, if_neg (by omega)]
  rw [hT]
  simp only
  rw [hE]
  simp only
  rw [colSlice_ok _ _ _ (show 1 + (N + 1 - 1) ≤ N + 1 by omega)]
  simp only
  rw [sub_ok _ _ hfr (show xf.cols = N + 1 - 1 by rw [hfc]; rfl)]
  simp only
  rw [hq]
  refine ⟨_, rfl, ?_⟩
  constructor
  case toCore =>
    constructor
    case N_eq => exact hN'.symm
    case M_eq => rfl
    case t_eq => rfl
    case param => rfl
    case x => rw [hN', ← wf.nx]
    case Kd => rw [hN', ← wf.nx]
    case Z => rw [hN', ← wf.nz]
    case u => rw [hN', ← wf.nu]
    case p => rw [hN', ← hnp]
    case U_shape => rw [hN']; exact ⟨hUr.trans wf.nu, hUc⟩
    case U => rw [hN']; exact hUv
    case tc_len => rw [hN']; exact htl
    case X_shape => rw [hN']; exact ⟨hXr.trans wf.nx, hXc⟩
    case cont_shape => rw [hN']; exact ⟨hfr.trans wf.nx, hfc⟩
    case coll_shape => rw [hN']; exact ⟨hDr, hDc⟩
    case tdp_shape => rw [hN']; exact ⟨hTr, by rw [hTc, htl]⟩
    case tdp => rw [hN']; intro env i c hc hi j hj; exact hTv env i c (by rw [htl]; exact hc) hi j hj
    case out =>
      rw [hN']
      intro env c hc i
      exact hEv env c i
    case quad_shape => rw [hN']; exact ⟨hQr, hQc⟩
    case q_shape => rw [hN']; exact ⟨hqr.trans hnq, hqc⟩
    case q_zero => exact hq0
    case Q_shape => rw [hN']; exact ⟨hQqr.trans hnq, hQqc⟩
  case butcher_c => exact vec_toList tau
  case tc => rw [hN']; exact htv
  case X => rw [hN']; exact hXv
  case cont =>
    rw [hN']
    intro env i n hn
    show xf.val env i n - env (fresh "x") i (1 + n) = _
    rw [hfv env i n hn, Nat.add_comm 1 n]
  case q => rw [hN']; exact hqs
  case Q => rw [hN']; exact hQv

end CE
