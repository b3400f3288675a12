import Verif.Num.PropsReverse
import Verif.Num.PropsSens
import Verif.Num.PropsDense

/-! # Property C138: integrating twice, in pieces, and back -/

namespace CE

/-- The assignment whose columns of `x`, `u` and of `K`, `Z` are the columns `bd`, `iv` and `pt` of `env`. -/
def colEnv (fresh : String → ℕ) (bd iv pt : ℕ → ℕ) (env : Env ℝ) : Env ℝ := fun id i c =>
  if id = fresh "x" then env id i (bd c) else if id = fresh "K" ∨ id = fresh "Z" then env id i (pt c)
  else if id = fresh "u" then env id i (iv c) else env id i c

section
variable (fresh freshI : String → ℕ) (casadiPoints : ℕ → String → Except PyErr (List ℝ))
    (csFunction : List (MXExpr ℝ) → List (MXExpr ℝ) → Except PyErr (CsFn ℝ))
    (dae : DaeObj ℝ) (t : List ℝ) (order : ℕ) (method : String) (tdp_fun : Option (ℝ → Mat ℝ))
    (d : DaeObj ℝ) (xdot res : MXExpr ℝ) (tau : List ℝ) (F : CsFn ℝ)

variable {fresh freshI casadiPoints csFunction dae t order method tdp_fun d xdot res tau F} in
theorem columns_colEnv {t t' : List ℝ} {s s' : Scheme ℝ} (hfr : DistinctSyms fresh)
    (b : s.Built fresh t order tdp_fun false d xdot res tau F)
    (b' : s'.Built fresh t' order tdp_fun false d xdot res tau F) (env : Env ℝ) (bd iv pt : ℕ → ℕ) :
    Columns s s' d false env (colEnv fresh bd iv pt env) bd iv pt := by
  refine ⟨?_, ?_, ?_, ?_, ?_⟩
  · intro n _ i _
    rw [b'.x, b.x]
    show colEnv fresh bd iv pt env (fresh "x") i n = env (fresh "x") i (bd n)
    simp [colEnv]
  · intro c _ i _
    rw [b'.Kd, b.Kd]
    show colEnv fresh bd iv pt env (fresh "K") i c = env (fresh "K") i (pt c)
    simp [colEnv, hfr.xK.symm]
  · intro c _ i _
    rw [b'.Z, b.Z]
    show colEnv fresh bd iv pt env (fresh "Z") i c = env (fresh "Z") i (pt c)
    simp [colEnv, hfr.xZ.symm]
  · intro n _ i _
    rw [b'.u, b.u]
    show colEnv fresh bd iv pt env (fresh "u") i n = env (fresh "u") i (iv n)
    simp [colEnv, hfr.xu.symm, hfr.Ku.symm, hfr.Zu.symm]
  · intro c hc i _
    simp only [Bool.false_eq_true, if_false] at hc ⊢
    obtain rfl : c = 0 := by omega
    rw [b'.p, b.p]
    show colEnv fresh bd iv pt env (fresh "P") i 0 = env (fresh "P") i 0
    simp [colEnv, hfr.xP.symm, hfr.KP.symm, hfr.ZP.symm, hfr.uP.symm]

/-- The integrator is constructed, and its outputs are the values of the scheme's attributes at a root. -/
theorem integrator_calls (pre : SchemePre freshI casadiPoints csFunction dae t order method tdp_fun d xdot res tau F)
    (hfr : DistinctSyms fresh) (hpq : dae.np = 0 ∨ dae.nq = 0) :
    ∃ g s, Integrator.new fresh freshI casadiPoints csFunction dae t order method tdp_fun = .ok g ∧
      Scheme.new fresh freshI casadiPoints csFunction dae t order method tdp_fun false = .ok s ∧
      ∀ rootfinder, IsRootfinder rootfinder → ∀ (x0 z0 u p : Mat ℝ) (out : IntegratorOut ℝ), g.call rootfinder x0 z0 u p = .ok out →
      ∃ env : Env ℝ, (∀ v ∈ s.eq.vals env, v = 0) ∧ (∀ i < d.nx, s.x.val env i 0 = x0.e i 0) ∧ s.u.val env = u.e ∧ s.p.val env = p.e ∧
      out.x.e = s.x.val env ∧ (out.xf.e = fun i j => s.x.val env i (j + 1)) ∧ out.X.e = s.X.val env ∧ out.Kd.e = s.Kd.val env ∧
      out.Z.e = s.Z.val env ∧ out.Q.e = s.Q.val env ∧ (out.qf.e = fun i _ => s.q.val env i (t.length - 1)) := by
  obtain ⟨s, x1, hs, -, hx1v, hnew⟩ := integrator_new fresh freshI casadiPoints csFunction dae t order method tdp_fun d xdot res tau F pre
  rw [if_neg (by omega)] at hnew
  have hnx : dae.nx = d.nx := by simp [DaeObj.nx, (makeImplicit_parts pre.impl).1]
  refine ⟨_, s, hnew, hs, fun rf hrf x0 z0 u p out ho => ?_⟩
  exact integrator_call_spec t order tdp_fun d xdot res tau F (pre.built hs) hfr hnx x1 hx1v _ rfl rfl (fun _ _ _ _ => rfl) rf hrf
    x0 z0 u p out ho

/-- Outputs of an integrator call and of another call are equal, column by column: column `n` of `x` of the second is column `bd n` of
the first, column `c` of `K`, `X` and `Z` of the second is column `pt c` of the first.  The second has `N` intervals of `M` points. -/
structure OutColumns (d : DaeObj ℝ) (N M : ℕ) (out out' : IntegratorOut ℝ) (bd pt : ℕ → ℕ) : Prop where
  x : ∀ n ≤ N, ∀ i < d.nx, out'.x.e i n = out.x.e i (bd n)
  Kd : ∀ c < N * M, ∀ i < d.nx, out'.Kd.e i c = out.Kd.e i (pt c)
  X : ∀ c < N * M, ∀ i < d.nx, out'.X.e i c = out.X.e i (pt c)
  Z : ∀ c < N * M, ∀ i < d.nz, out'.Z.e i c = out.Z.e i (pt c)

/-- Two solutions of the scheme for the same data have the same quadratures. -/
theorem unique_quad (hcs : IsCsFunction csFunction)
    (pre : SchemePre freshI casadiPoints csFunction dae t order method tdp_fun d xdot res tau F) (s : Scheme ℝ)
    (hs : Scheme.new fresh freshI casadiPoints csFunction dae t order method tdp_fun false = .ok s)
    (L Lz θ : ℝ) (ix : IndexOne d xdot res L Lz) (hθ : θ < 1) (T : ButcherTableau ℝ)
    (hT : butcherTableuForCollocationPoints tau = .ok T)
    (hstep : ∀ n < t.length - 1, ∀ j < order, L * (|nd t (n + 1) - nd t n| * ∑ k ∈ Finset.range order, |T.A.e [j, k]|) ≤ θ)
    (env₁ env₂ : Env ℝ) (h₁ : ∀ v ∈ s.eq.vals env₁, v = 0) (h₂ : ∀ v ∈ s.eq.vals env₂, v = 0)
    (hx : ∀ i < d.nx, s.x.val env₁ i 0 = s.x.val env₂ i 0) (hu : ∀ n < t.length - 1, ∀ i < d.nu, s.u.val env₁ i n = s.u.val env₂ i n)
    (hp : ∀ i < d.np, s.p.val env₁ i 0 = s.p.val env₂ i 0) :
    (∀ n ≤ t.length - 1, ∀ i < d.nx, s.x.val env₁ i n = s.x.val env₂ i n) ∧
    (∀ c < (t.length - 1) * order, (∀ i < d.nx, s.Kd.val env₁ i c = s.Kd.val env₂ i c ∧ s.X.val env₁ i c = s.X.val env₂ i c) ∧
      ∀ k < d.nz, s.Z.val env₁ k c = s.Z.val env₂ k c) ∧
    ∀ n ≤ t.length - 1, ∀ k < d.nq, s.q.val env₁ k n = s.q.val env₂ k n := by
  have b := pre.built hs
  have hN := b.N_eq
  have hM := b.M_eq
  have two := pre.two
  obtain ⟨ux, uc⟩ := C88_unique fresh freshI casadiPoints csFunction dae t order method tdp_fun d xdot res tau F false s hcs pre hs L Lz θ ix
    hθ T hT (by rw [hN, hM]; exact hstep) env₁ env₂ h₁ h₂ hx (by rw [hN]; exact hu) hp
  rw [hN] at ux
  rw [hN, hM] at uc
  refine ⟨ux, uc, fun n hn k hk => ?_⟩
  have hc : Columns s s d false env₂ env₁ (fun n => 0 + n) (fun n => 0 + n) (fun c => 0 * s.M + c) := by
    simp only [Nat.zero_mul, Nat.zero_add]
    refine ⟨fun n hn => ux n (by omega), fun c hc i hi => ((uc c (by rw [hN, hM] at hc; exact hc)).1 i hi).1,
      fun c hc => (uc c (by rw [hN, hM] at hc; exact hc)).2, fun n hn => hu n (by omega), ?_⟩
    intro c hc i hi
    simp only [Bool.false_eq_true, if_false] at hc ⊢
    obtain rfl : c = 0 := by omega
    exact hp i hi
  have := (part_core fresh freshI casadiPoints csFunction dae t order method tdp_fun d xdot res tau F false s s hcs pre hs t 0
    (t.length - 1) (by rw [List.drop_zero, List.take_of_length_le (by omega)]) (by omega) (by omega) hs env₂ env₁ hc).2.2.2.2.2.2
    n hn k hk
  rw [b.q_zero, zero_add, zero_add] at this
  exact this.symm

/-- **C138** (root) The equations that the integrator gives to the root finder have exactly one root, also for models with algebraic
states. -/
theorem C138_root (hcs : IsCsFunction csFunction)
    (pre : SchemePre freshI casadiPoints csFunction dae t order method tdp_fun d xdot res tau F)
    (hfr : DistinctSyms fresh) (hpq : dae.np = 0 ∨ dae.nq = 0)
    (L Lz θ : ℝ) (ix : IndexOne d xdot res L Lz) (hsol : Solvable d xdot res) (hθ : θ < 1) (T : ButcherTableau ℝ)
    (hT : butcherTableuForCollocationPoints tau = .ok T)
    (hstep : ∀ n < t.length - 1, ∀ j < order, L * (|nd t (n + 1) - nd t n| * ∑ k ∈ Finset.range order, |T.A.e [j, k]|) ≤ θ) :
    ∃ g, Integrator.new fresh freshI casadiPoints csFunction dae t order method tdp_fun = .ok g ∧
      ∀ x0 z0 u p, ∃ w, (w.length = (g.w0 x0 z0).length ∧ ∀ v ∈ g.residual w x0 u p, v = 0) ∧
        ∀ w', w'.length = (g.w0 x0 z0).length → (∀ v ∈ g.residual w' x0 u p, v = 0) → w' = w := by
  obtain ⟨s, x1, hs, -, hx1v, hnew⟩ := integrator_new fresh freshI casadiPoints csFunction dae t order method tdp_fun d xdot res tau F
    pre
  rw [if_neg (by omega)] at hnew
  have b := pre.built hs
  obtain ⟨px, -⟩ := makeImplicit_parts pre.impl
  have hnx : dae.nx = d.nx := by simp [DaeObj.nx, px]
  have hnx' := pre.wf.nx
  have htwo := pre.two
  have hf : [fresh "x", fresh "K", fresh "Z", fresh "u", fresh "P"].Nodup := by
    simp [hfr.xK, hfr.xZ, hfr.xu, hfr.xP, hfr.KZ, hfr.Ku, hfr.KP, hfr.Zu, hfr.ZP, hfr.uP]
  have hxr : s.x.rows = d.nx ∧ s.x.cols = t.length - 1 + 1 := by rw [b.x]; exact ⟨pre.wf.nx.symm, rfl⟩
  have hKr : s.Kd.rows = d.nx ∧ s.Kd.cols = (t.length - 1) * order := by rw [b.Kd]; exact ⟨pre.wf.nx.symm, rfl⟩
  have hZr : s.Z.rows = d.nz ∧ s.Z.cols = (t.length - 1) * order := by rw [b.Z]; exact ⟨pre.wf.nz.symm, rfl⟩
  have hlen : ∀ x0 z0 : Mat ℝ, ((⟨s.x.rows, s.x.cols, fun i _ => x0.e i 0⟩ : Mat ℝ).vals ++
      (⟨s.Kd.rows, s.Kd.cols, fun _ _ => 0⟩ : Mat ℝ).vals ++
      (⟨s.Z.rows, s.Z.cols, fun i _ => z0.e i 0⟩ : Mat ℝ).vals).length = s.x.numel + s.Kd.numel + s.Z.numel := by
    intro x0 z0
    simp only [List.length_append, Mat.vals_length]
    rfl
  refine ⟨_, hnew, fun x0 z0 u p => ?_⟩
  simp only [hlen]
  have eu : ∀ w i n, s.u.val (Integrator.envOf fresh s w u p) i n = u.e i n := by
    intro w i n
    rw [b.u]
    show Integrator.envOf fresh s w u p (fresh "u") i n = _
    rw [Integrator.envOf, if_neg hfr.xu.symm, if_neg hfr.Ku.symm, if_neg hfr.Zu.symm, if_pos rfl]
  have ep : ∀ w i n, s.p.val (Integrator.envOf fresh s w u p) i n = p.e i n := by
    intro w i n
    rw [b.p]
    show Integrator.envOf fresh s w u p (fresh "P") i n = _
    rw [Integrator.envOf, if_neg hfr.xP.symm, if_neg hfr.KP.symm, if_neg hfr.ZP.symm, if_neg hfr.uP.symm, if_pos rfl]
  obtain ⟨env, heq, hx, hu, hp⟩ := C88_exists fresh freshI casadiPoints csFunction dae t order method tdp_fun d xdot res tau F false s hcs
    pre hs hf L Lz θ ix hsol hθ T hT (by rw [b.N_eq, b.M_eq]; exact hstep) (Integrator.envOf fresh s [] u p) (fun h => by cases h) (fun i => x0.e i 0)
  obtain ⟨w, hwl, hw, hwx⟩ := exists_root fresh freshI casadiPoints csFunction dae t order method tdp_fun d xdot res tau F s hcs pre b hfr
    env heq u p (fun i n => by rw [hu, eu]) (fun i n => by rw [hp, ep])
  refine ⟨w, ⟨hwl, fun v hv => ?_⟩, fun w' hw' hr' => ?_⟩
  · rcases List.mem_append.mp hv with h | h
    · exact hw v h
    · obtain ⟨i, hi, rfl⟩ := List.mem_map.mp h
      have hi := List.mem_range.mp hi
      rw [hx1v, hwx i (by omega) 0 (by omega), hx, sub_self]
  · have hr := fun v hv => hr' v (List.mem_append_left _ hv)
    have hx' : ∀ i < d.nx, s.x.val (Integrator.envOf fresh s w' u p) i 0 = s.x.val (Integrator.envOf fresh s w u p) i 0 := by
      intro i hi
      have := hr' (x1.val (Integrator.envOf fresh s w' u p) i 0 - x0.e i 0)
        (List.mem_append_right _ (List.mem_map.mpr ⟨i, List.mem_range.mpr (by omega), rfl⟩))
      rw [hx1v] at this
      rw [sub_eq_zero.mp this, hwx i hi 0 (by omega), hx]
    obtain ⟨ux, uc, -⟩ := unique_quad fresh freshI casadiPoints csFunction dae t order method tdp_fun d xdot res tau F hcs
      pre s hs L Lz θ ix hθ T hT hstep (Integrator.envOf fresh s w' u p) (Integrator.envOf fresh s w u p) hr hw hx'
      (fun n hn i hi => by rw [eu, eu]) (fun i hi => by rw [ep, ep])
    have uK := fun c hc => (uc c hc).1
    have uZ := fun c hc => (uc c hc).2
    rw [b.x] at ux
    rw [b.Kd] at uK
    rw [b.Z] at uZ
    have ex : ∀ w, Integrator.envOf fresh s w u p (fresh "x") = (Mat.ofVec w 0 s.x.rows s.x.cols).e := by
      intro w
      rw [Integrator.envOf, if_pos rfl]
    have eK : ∀ w, Integrator.envOf fresh s w u p (fresh "K") = (Mat.ofVec w s.x.numel s.Kd.rows s.Kd.cols).e := by
      intro w
      rw [Integrator.envOf, if_neg hfr.xK.symm, if_pos rfl]
    have eZ : ∀ w, Integrator.envOf fresh s w u p (fresh "Z") = (Mat.ofVec w (s.x.numel + s.Kd.numel) s.Z.rows s.Z.cols).e := by
      intro w
      rw [Integrator.envOf, if_neg hfr.xZ.symm, if_neg hfr.KZ.symm, if_pos rfl]
    refine List.ext_getElem (by rw [hw', hwl]) fun k h1 h2 => ?_
    rw [← nd_eq_getElem h1, ← nd_eq_getElem h2]
    have hk : k < s.x.numel + s.Kd.numel + s.Z.numel := by rw [← hwl]; exact h2
    rcases Nat.lt_or_ge k s.x.numel with h | h
    · obtain ⟨a1, a2, a3⟩ := nd_eq_ofVec w' 0 s.x.rows s.x.cols k h
      have b3 := (nd_eq_ofVec w 0 s.x.rows s.x.cols k h).2.2
      rw [Nat.zero_add, ← ex] at a3 b3
      rw [hxr.1] at a1
      rw [hxr.2] at a2
      rw [a3, b3]
      exact ux _ (by omega) _ (by rw [hxr.1]; exact a1)
    rcases Nat.lt_or_ge k (s.x.numel + s.Kd.numel) with h' | h'
    · obtain ⟨m, rfl⟩ := Nat.exists_eq_add_of_le h
      have hm : m < s.Kd.rows * s.Kd.cols := by
        have : m < s.Kd.numel := by omega
        exact this
      obtain ⟨a1, a2, a3⟩ := nd_eq_ofVec w' s.x.numel s.Kd.rows s.Kd.cols m hm
      have b3 := (nd_eq_ofVec w s.x.numel s.Kd.rows s.Kd.cols m hm).2.2
      rw [← eK] at a3 b3
      rw [hKr.1] at a1
      rw [hKr.2] at a2
      rw [a3, b3]
      exact (uK _ a2 _ (by rw [hKr.1]; exact a1)).1
    · obtain ⟨m, rfl⟩ := Nat.exists_eq_add_of_le h'
      have hm : m < s.Z.rows * s.Z.cols := by
        have : m < s.Z.numel := by omega
        exact this
      obtain ⟨a1, a2, a3⟩ := nd_eq_ofVec w' (s.x.numel + s.Kd.numel) s.Z.rows s.Z.cols m hm
      have b3 := (nd_eq_ofVec w (s.x.numel + s.Kd.numel) s.Z.rows s.Z.cols m hm).2.2
      rw [← eZ] at a3 b3
      rw [hZr.1] at a1
      rw [hZr.2] at a2
      rw [a3, b3]
      exact uZ _ a2 _ (by rw [hZr.1]; exact a1)

/-- **C138** (result determined) The outputs of the integrator depend neither on the root finder nor on the initial guess of the
algebraic states: two calls with the same initial state, inputs and parameters return the same `x`, `K`, `X`, `Z` and `qf`. -/
theorem C138_determined (hcs : IsCsFunction csFunction)
    (pre : SchemePre freshI casadiPoints csFunction dae t order method tdp_fun d xdot res tau F)
    (hfr : DistinctSyms fresh) (hpq : dae.np = 0 ∨ dae.nq = 0)
    (L Lz θ : ℝ) (ix : IndexOne d xdot res L Lz) (hθ : θ < 1) (T : ButcherTableau ℝ)
    (hT : butcherTableuForCollocationPoints tau = .ok T)
    (hstep : ∀ n < t.length - 1, ∀ j < order, L * (|nd t (n + 1) - nd t n| * ∑ k ∈ Finset.range order, |T.A.e [j, k]|) ≤ θ) :
    ∃ g, Integrator.new fresh freshI casadiPoints csFunction dae t order method tdp_fun = .ok g ∧
      ∀ rf rf', IsRootfinder rf → IsRootfinder rf' → ∀ (x0 z0 u p x0' z0' u' p' : Mat ℝ) (out out' : IntegratorOut ℝ),
      g.call rf x0 z0 u p = .ok out → g.call rf' x0' z0' u' p' = .ok out' →
      (∀ i < d.nx, x0'.e i 0 = x0.e i 0) → (∀ n < t.length - 1, ∀ k < d.nu, u'.e k n = u.e k n) → (∀ i < d.np, p'.e i 0 = p.e i 0) →
      OutColumns d (t.length - 1) order out out' id id ∧ ∀ k < d.nq, out'.qf.e k 0 = out.qf.e k 0 := by
  obtain ⟨g, s, hg, hs, hcall⟩ := integrator_calls fresh freshI casadiPoints csFunction dae t order method tdp_fun d xdot res tau F pre hfr hpq
  refine ⟨g, hg, fun rf rf' hrf hrf' x0 z0 u p x0' z0' u' p' out out' ho ho' hx hu hp => ?_⟩
  obtain ⟨env, e1, e2, e3, e4, e5, -, e7, e8, e9, -, e11⟩ := hcall rf hrf _ _ _ _ _ ho
  obtain ⟨env', e1', e2', e3', e4', e5', -, e7', e8', e9', -, e11'⟩ := hcall rf' hrf' _ _ _ _ _ ho'
  obtain ⟨ux, uc, uq⟩ := unique_quad fresh freshI casadiPoints csFunction dae t order method tdp_fun d xdot res tau F hcs pre s hs L Lz θ ix
    hθ T hT hstep env' env e1' e1 (fun i hi => by rw [e2' i hi, e2 i hi, hx i hi])
    (fun n hn i hi => by rw [e3', e3]; exact hu n hn i hi) (fun i hi => by rw [e4', e4]; exact hp i hi)
  refine ⟨⟨fun n hn i hi => ?_, fun c hc i hi => ?_, fun c hc i hi => ?_, fun c hc i hi => ?_⟩, fun k hk => ?_⟩
  · rw [e5', e5]; exact ux n hn i hi
  · rw [e8', e8]; exact ((uc c hc).1 i hi).1
  · rw [e7', e7]; exact ((uc c hc).1 i hi).2
  · rw [e9', e9]; exact (uc c hc).2 i hi
  · rw [e11', e11]; exact uq _ le_rfl k hk

/-- **C138** (pieces) Integrating over a grid is integrating over its first `m` intervals and then, from the state reached, over the
others: the columns of the outputs are those of the two parts, and the quadratures add up. -/
theorem C138_flow (hcs : IsCsFunction csFunction)
    (pre : SchemePre freshI casadiPoints csFunction dae t order method tdp_fun d xdot res tau F)
    (hfr : DistinctSyms fresh) (hpq : dae.np = 0 ∨ dae.nq = 0)
    (L Lz θ : ℝ) (ix : IndexOne d xdot res L Lz) (hθ : θ < 1) (T : ButcherTableau ℝ)
    (hT : butcherTableuForCollocationPoints tau = .ok T)
    (hstep : ∀ n < t.length - 1, ∀ j < order, L * (|nd t (n + 1) - nd t n| * ∑ k ∈ Finset.range order, |T.A.e [j, k]|) ≤ θ)
    (m : ℕ) (hm : 0 < m) (hmN : m < t.length - 1) :
    ∃ g g₁ g₂, Integrator.new fresh freshI casadiPoints csFunction dae t order method tdp_fun = .ok g ∧
      Integrator.new fresh freshI casadiPoints csFunction dae (t.take (m + 1)) order method tdp_fun = .ok g₁ ∧
      Integrator.new fresh freshI casadiPoints csFunction dae (t.drop m) order method tdp_fun = .ok g₂ ∧
      ∀ rf rf₁ rf₂, IsRootfinder rf → IsRootfinder rf₁ → IsRootfinder rf₂ →
      ∀ (x0 z0 u p x₁ z₁ u₁ p₁ x₂ z₂ u₂ p₂ : Mat ℝ) (out out₁ out₂ : IntegratorOut ℝ),
      g.call rf x0 z0 u p = .ok out → g₁.call rf₁ x₁ z₁ u₁ p₁ = .ok out₁ → g₂.call rf₂ x₂ z₂ u₂ p₂ = .ok out₂ →
      (∀ i < d.nx, x₁.e i 0 = x0.e i 0) → (∀ n < m, ∀ k < d.nu, u₁.e k n = u.e k n) → (∀ i < d.np, p₁.e i 0 = p.e i 0) →
      (∀ i < d.nx, x₂.e i 0 = out₁.xf.e i (m - 1)) → (∀ n < t.length - 1 - m, ∀ k < d.nu, u₂.e k n = u.e k (m + n)) →
      (∀ i < d.np, p₂.e i 0 = p.e i 0) →
      OutColumns d m order out out₁ id id ∧
      OutColumns d (t.length - 1 - m) order out out₂ (fun n => m + n) (fun c => m * order + c) ∧
      ∀ k < d.nq, out.qf.e k 0 = out₁.qf.e k 0 + out₂.qf.e k 0 := by
  have two := pre.two
  have l₁ : (t.take (m + 1)).length - 1 = m := by rw [List.length_take]; omega
  have l₂ : (t.drop m).length - 1 = t.length - 1 - m := by rw [List.length_drop]; omega
  have pre₁ : SchemePre freshI casadiPoints csFunction dae (t.take (m + 1)) order method tdp_fun d xdot res tau F :=
    ⟨pre.impl, pre.wf, pre.p, pre.quad, by omega, pre.pos, pre.points, pre.len, pre.tdpFun, pre.fn⟩
  have pre₂ : SchemePre freshI casadiPoints csFunction dae (t.drop m) order method tdp_fun d xdot res tau F :=
    ⟨pre.impl, pre.wf, pre.p, pre.quad, by omega, pre.pos, pre.points, pre.len, pre.tdpFun, pre.fn⟩
  obtain ⟨g, s, hg, hs, hcall⟩ := integrator_calls fresh freshI casadiPoints csFunction dae t order method tdp_fun d xdot res tau F pre hfr hpq
  obtain ⟨g₁, s₁, hg₁, hs₁, hcall₁⟩ := integrator_calls fresh freshI casadiPoints csFunction dae _ order method tdp_fun d xdot res tau F pre₁
    hfr hpq
  obtain ⟨g₂, s₂, hg₂, hs₂, hcall₂⟩ := integrator_calls fresh freshI casadiPoints csFunction dae _ order method tdp_fun d xdot res tau F pre₂
    hfr hpq
  refine ⟨g, g₁, g₂, hg, hg₁, hg₂, ?_⟩
  intro rf rf₁ rf₂ hrf hrf₁ hrf₂ x0 z0 u p x₁ z₁ u₁ p₁ x₂ z₂ u₂ p₂ out out₁ out₂ ho ho₁ ho₂ hx₁ hu₁ hp₁ hx₂ hu₂ hp₂
  have b := pre.built hs
  have b₁ := pre₁.built hs₁
  have b₂ := pre₂.built hs₂
  have hN := b.N_eq
  have hM := b.M_eq
  have hN₁ := b₁.N_eq
  have hN₂ := b₂.N_eq
  obtain ⟨env, e1, e2, e3, e4, e5, -, e7, e8, e9, -, e11⟩ := hcall rf hrf _ _ _ _ _ ho
  obtain ⟨env₁, f1, f2, f3, f4, f5, f6, f7, f8, f9, -, f11⟩ := hcall₁ rf₁ hrf₁ _ _ _ _ _ ho₁
  obtain ⟨env₂, g1, g2, g3, g4, g5, -, g7, g8, g9, -, g11⟩ := hcall₂ rf₂ hrf₂ _ _ _ _ _ ho₂
  have c₁ := columns_colEnv hfr b b₁ env id id id
  have c₂ := columns_colEnv hfr b b₂ env (fun n => m + n) (fun n => m + n) (fun c => m * s.M + c)
  obtain ⟨hiff, ⟨hm₁, hsum⟩, X₁, X₂, q₁, q₂⟩ := C77_split fresh freshI casadiPoints csFunction dae t order method tdp_fun d xdot res tau F
    false s hcs pre hs m hm (by omega) s₁ s₂ hs₁ hs₂ env _ _ c₁ c₂
  obtain ⟨h1, h2, -⟩ := hiff.mp e1
  set v₁ := colEnv fresh id id id env
  set v₂ := colEnv fresh (fun n => m + n) (fun n => m + n) (fun c => m * s.M + c) env
  have cp₁ := c₁.p 0 (by simp)
  have cp₂ := c₂.p 0 (by simp)
  simp only [Bool.false_eq_true, if_false] at cp₁ cp₂
  obtain ⟨ux₁, uc₁, uq₁⟩ := unique_quad fresh freshI casadiPoints csFunction dae _ order method tdp_fun d xdot res tau F hcs pre₁ s₁ hs₁ L Lz
    θ ix hθ T hT (fun n hn j hj => by
      rw [l₁] at hn
      have e : t.take (m + 1) = (t.drop 0).take (m + 1) := rfl
      rw [nd_part e (show n + 1 ≤ m by omega), nd_part e hn.le, Nat.zero_add, Nat.zero_add]
      exact hstep n (by omega) j hj) env₁ v₁ f1 h1
    (fun i hi => by rw [f2 i hi, c₁.x 0 (by omega) i hi, hx₁ i hi]; exact (e2 i hi).symm)
    (fun n hn i hi => by rw [l₁] at hn; rw [f3, c₁.u n (by omega) i hi, e3]; exact hu₁ n hn i hi)
    (fun i hi => by rw [f4, cp₁ i hi, e4]; exact hp₁ i hi)
  rw [l₁] at ux₁ uc₁ uq₁
  obtain ⟨ux₂, uc₂, uq₂⟩ := unique_quad fresh freshI casadiPoints csFunction dae _ order method tdp_fun d xdot res tau F hcs pre₂ s₂ hs₂ L Lz
    θ ix hθ T hT (fun n hn j hj => by
      rw [l₂] at hn
      have e : t.drop m = (t.drop m).take (t.length - 1 - m + 1) := by
        rw [List.take_of_length_le]; rw [List.length_drop]; omega
      rw [nd_part e (show n + 1 ≤ t.length - 1 - m by omega), nd_part e hn.le, ← Nat.add_assoc]
      exact hstep (m + n) (by omega) j hj) env₂ v₂ g1 h2
    (fun i hi => by
      rw [g2 i hi, c₂.x 0 (by omega) i hi, hx₂ i hi, f6]
      show s₁.x.val env₁ i (m - 1 + 1) = _
      rw [show m - 1 + 1 = m by omega, ux₁ m le_rfl i hi, c₁.x m (by omega) i hi]
      rfl)
    (fun n hn i hi => by rw [l₂] at hn; rw [g3, c₂.u n (by omega) i hi, e3]; exact hu₂ n hn i hi)
    (fun i hi => by rw [g4, cp₂ i hi, e4]; exact hp₂ i hi)
  rw [l₂] at ux₂ uc₂ uq₂
  have k₁ := c₁.k
  have k₂ := c₂.k
  have zz₁ := c₁.z
  have zz₂ := c₂.z
  rw [hN₁, l₁, b₁.M_eq] at k₁ zz₁
  rw [hN₂, l₂, b₂.M_eq] at k₂ zz₂
  rw [hN₁, l₁] at X₁ q₁
  rw [hN₂, l₂] at X₂ q₂
  rw [hM] at k₂ zz₂ X₁ X₂
  refine ⟨⟨fun n hn i hi => ?_, fun c hc i hi => ?_, fun c hc i hi => ?_, fun c hc i hi => ?_⟩,
    ⟨fun n hn i hi => ?_, fun c hc i hi => ?_, fun c hc i hi => ?_, fun c hc i hi => ?_⟩, fun k hk => ?_⟩
  · rw [f5, e5, ux₁ n hn i hi]; exact c₁.x n (by omega) i hi
  · rw [f8, e8, ((uc₁ c hc).1 i hi).1]; exact k₁ c hc i hi
  · rw [f7, e7, ((uc₁ c hc).1 i hi).2]; exact (X₁ c hc i hi).symm
  · rw [f9, e9, (uc₁ c hc).2 i hi]; exact zz₁ c hc i hi
  · rw [g5, e5, ux₂ n hn i hi]; exact c₂.x n (by omega) i hi
  · rw [g8, e8, ((uc₂ c hc).1 i hi).1]; exact k₂ c hc i hi
  · rw [g7, e7, ((uc₂ c hc).1 i hi).2]; exact (X₂ c hc i hi).symm
  · rw [g9, e9, (uc₂ c hc).2 i hi]; exact zz₂ c hc i hi
  · have hq := q₂ (t.length - 1 - m) le_rfl k hk
    rw [show m + (t.length - 1 - m) = t.length - 1 by omega] at hq
    rw [e11, f11, g11, l₁, l₂]
    show s.q.val env k (t.length - 1) = s₁.q.val env₁ k m + s₂.q.val env₂ k (t.length - 1 - m)
    rw [hq, uq₁ m le_rfl k hk, uq₂ _ le_rfl k hk]

/-- **C138** (back) With symmetric nodes, integrating back over the reversed grid with the inputs in reverse order, from the state
reached, returns to the initial state through the same states; the quadratures change sign. -/
theorem C138_back (hcs : IsCsFunction csFunction)
    (pre : SchemePre freshI casadiPoints csFunction dae t order method tdp_fun d xdot res tau F)
    (hfr : DistinctSyms fresh) (hpq : dae.np = 0 ∨ dae.nq = 0)
    (L Lz θ : ℝ) (ix : IndexOne d xdot res L Lz) (hθ : θ < 1) (T : ButcherTableau ℝ)
    (hT : butcherTableuForCollocationPoints tau = .ok T)
    (hstep : ∀ n < t.length - 1, ∀ j < order, L * (|nd t (n + 1) - nd t n| * ∑ k ∈ Finset.range order, |T.A.e [j, k]|) ≤ θ)
    (hd : tau.Nodup) (hsy : SymmetricNodes tau) :
    ∃ g g', Integrator.new fresh freshI casadiPoints csFunction dae t order method tdp_fun = .ok g ∧
      Integrator.new fresh freshI casadiPoints csFunction dae t.reverse order method tdp_fun = .ok g' ∧
      ∀ rf rf', IsRootfinder rf → IsRootfinder rf' →
      ∀ (x0 z0 u p x0' z0' u' p' : Mat ℝ) (out out' : IntegratorOut ℝ),
      g.call rf x0 z0 u p = .ok out → g'.call rf' x0' z0' u' p' = .ok out' →
      (∀ i < d.nx, x0'.e i 0 = out.xf.e i (t.length - 2)) → (∀ n < t.length - 1, ∀ k < d.nu, u'.e k n = u.e k (t.length - 2 - n)) →
      (∀ i < d.np, p'.e i 0 = p.e i 0) →
      (∀ i < d.nx, out'.xf.e i (t.length - 2) = x0.e i 0) ∧
      OutColumns d (t.length - 1) order out out' (fun n => t.length - 1 - n) (fun c => (t.length - 1) * order - 1 - c) ∧
      ∀ k < d.nq, out'.qf.e k 0 = -out.qf.e k 0 := by
  have two := pre.two
  obtain ⟨g, s, hg, hs, hcall⟩ := integrator_calls fresh freshI casadiPoints csFunction dae t order method tdp_fun d xdot res tau F pre hfr hpq
  obtain ⟨g', s', hg', hs', hcall'⟩ := integrator_calls fresh freshI casadiPoints csFunction dae _ order method tdp_fun d xdot res tau F
    pre.reverse hfr hpq
  refine ⟨g, g', hg, hg', ?_⟩
  intro rf rf' hrf hrf' x0 z0 u p x0' z0' u' p' out out' ho ho' hx hu hp
  have b := pre.built hs
  have b' := pre.reverse.built hs'
  have hN := b.N_eq
  have hM := b.M_eq
  have hN' := b'.N_eq
  have hM' := b'.M_eq
  have hl : t.reverse.length = t.length := List.length_reverse
  rw [hl] at hN'
  obtain ⟨env, e1, e2, e3, e4, e5, e6, e7, e8, e9, -, e11⟩ := hcall rf hrf _ _ _ _ _ ho
  obtain ⟨env', f1, f2, f3, f4, f5, f6, f7, f8, f9, -, f11⟩ := hcall' rf' hrf' _ _ _ _ _ ho'
  have c := columns_colEnv hfr b b' env (fun n => s.N - n) (fun n => s.N - 1 - n) (fun c => s.N * s.M - 1 - c)
  obtain ⟨hiff, himp⟩ := C76_reverse fresh freshI casadiPoints csFunction dae t order method tdp_fun d xdot res tau F false s s' hcs pre hs
    hs' hd hsy env _ c
  obtain ⟨-, hX, hq⟩ := himp e1
  have h' := hiff.mpr e1
  set v := colEnv fresh (fun n => s.N - n) (fun n => s.N - 1 - n) (fun c => s.N * s.M - 1 - c) env
  have cp := c.p 0 (by simp)
  simp only [Bool.false_eq_true, if_false] at cp
  obtain ⟨ux, uc, uq⟩ := unique_quad fresh freshI casadiPoints csFunction dae _ order method tdp_fun d xdot res tau F hcs pre.reverse s' hs' L
    Lz θ ix hθ T hT (fun n hn j hj => by
      rw [hl] at hn
      rw [nd_reverse (by omega), nd_reverse (by omega), abs_sub_comm]
      have := hstep (t.length - 1 - (n + 1)) (by omega) j hj
      rwa [show t.length - 1 - (n + 1) + 1 = t.length - 1 - n by omega] at this) env' v f1 h'
    (fun i hi => by
      rw [f2 i hi, c.x 0 (by omega) i hi, hx i hi, e6, hN]
      show s.x.val env i (t.length - 2 + 1) = _
      rw [show t.length - 2 + 1 = t.length - 1 - 0 by omega])
    (fun n hn i hi => by
      rw [hl] at hn
      rw [f3, c.u n (by omega) i hi, e3, hu n hn i hi, hN, show t.length - 1 - 1 - n = t.length - 2 - n by omega])
    (fun i hi => by rw [f4, cp i hi, e4]; exact hp i hi)
  rw [hl] at ux uc uq
  have ck := c.k
  have cz := c.z
  have cx := c.x
  rw [hN', hM', hN, hM] at ck cz
  rw [hN', hN] at cx
  rw [hN, hM] at hX
  rw [hN] at hq
  have key : OutColumns d (t.length - 1) order out out' (fun n => t.length - 1 - n) (fun c => (t.length - 1) * order - 1 - c) := by
    refine ⟨fun n hn i hi => ?_, fun c hc i hi => ?_, fun c hc i hi => ?_, fun c hc i hi => ?_⟩
    · rw [f5, e5, ux n hn i hi]; exact cx n hn i hi
    · rw [f8, e8, ((uc c hc).1 i hi).1]; exact ck c hc i hi
    · rw [f7, e7, ((uc c hc).1 i hi).2]; exact hX c hc i hi
    · rw [f9, e9, (uc c hc).2 i hi]; exact cz c hc i hi
  refine ⟨fun i hi => ?_, key, fun k hk => ?_⟩
  · have := key.x (t.length - 1) le_rfl i hi
    simp only [Nat.sub_self] at this
    rw [← e2 i hi, ← e5, ← this, f6, f5]
    show s'.x.val env' i (t.length - 2 + 1) = _
    rw [show t.length - 2 + 1 = t.length - 1 by omega]
  · have := hq (t.length - 1) le_rfl k hk
    rw [Nat.sub_self, b.q_zero, zero_sub] at this
    rw [f11, e11, hl]
    show s'.q.val env' k (t.length - 1) = _
    rw [uq _ le_rfl k hk, this]

end

/-! ## Non-vacuity -/

/-- The integrator of `x' = -z`, `0 = z - x` on grids with steps of at most 1, for nodes whose tableau has rows of sum at most `1/2`:
calls with a root finder that finds every root succeed. -/
theorem loop_call (freshI : String → ℕ) (hI : 7 ≤ freshI "xdot") (t : List ℝ) (two : 2 ≤ t.length)
    (ht : ∀ n < t.length - 1, |nd t (n + 1) - nd t n| ≤ 1) (x0 z0 u p : Mat ℝ) :
    ∃ g out, Integrator.new exFresh freshI (fun _ _ => .ok [1 / 2]) idealCsFunction loopO t 1 "legendre" none = .ok g ∧
      g.call idealRoot x0 z0 u p = .ok out := by
  obtain ⟨F, pre⟩ := loop_pre freshI hI t [1 / 2] two (by simp)
  have hA := wA_half.1
  obtain ⟨g, hg, hroot⟩ := C138_root exFresh freshI _ _ _ _ _ _ _ _ _ _ _ _ idealCsFunction_spec pre (by constructor <;> decide)
    (.inl rfl) 1 1 (1 / 2) (loop_index freshI).1 (loop_index freshI).2 (by norm_num) _ (butcher_ok _) (fun n hn j hj => by
      obtain rfl : j = 0 := by simpa using hj
      have h : |(wA ([1 / 2] : List ℝ) 0 0)| = 1 / 2 := by rw [hA]; norm_num
      have := ht n hn
      show 1 * (_ * ∑ k ∈ Finset.range 1, |wA ([1 / 2] : List ℝ) 0 k|) ≤ _
      rw [Finset.sum_range_one, h]
      linarith)
  obtain ⟨w, hw, -⟩ := hroot x0 z0 u p
  obtain ⟨sol, hsol⟩ := idealRoot_ok (f := fun w => g.residual w x0 u p) (w0 := g.w0 x0 z0) ⟨w, hw⟩
  have hcall : ∃ out, g.call idealRoot x0 z0 u p = .ok out := by
    unfold Integrator.call
    rw [hsol]
    exact ⟨_, rfl⟩
  obtain ⟨out, hout⟩ := hcall
  exact ⟨g, out, hg, hout⟩

theorem loop_steps {t : List ℝ} (ht : ∀ n < t.length - 1, |nd t (n + 1) - nd t n| ≤ 1) :
    ∀ n < t.length - 1, ∀ j < ([1 / 2] : List ℝ).length, 1 * (|nd t (n + 1) - nd t n| *
      ∑ k ∈ Finset.range ([1 / 2] : List ℝ).length, |wA ([1 / 2] : List ℝ) j k|) ≤ 1 / 2 := by
  intro n hn j hj
  obtain rfl : j = 0 := by simpa using hj
  have h : |(wA ([1 / 2] : List ℝ) 0 0)| = 1 / 2 := by rw [wA_half.1]; norm_num
  have := ht n hn
  show 1 * (_ * ∑ k ∈ Finset.range 1, |wA ([1 / 2] : List ℝ) 0 k|) ≤ _
  rw [Finset.sum_range_one, h]
  linarith

/-- The midpoint rule for `x' = -z`, `0 = z - x` on `[0, 1/2, 1]` and back: integrating in one call or in two gives the same final state,
and integrating back from it over `[1, 1/2, 0]` gives the initial state again; all the calls succeed. -/
example (freshI : String → ℕ) (hI : 7 ≤ freshI "xdot") (a : ℝ) (z u p : Mat ℝ) : ∃ g g₁ g₂ g' out out₁ out₂ out',
    Integrator.new exFresh freshI (fun _ _ => .ok [1 / 2]) idealCsFunction loopO [0, 1 / 2, 1] 1 "legendre" none = .ok g ∧
    Integrator.new exFresh freshI (fun _ _ => .ok [1 / 2]) idealCsFunction loopO [0, 1 / 2] 1 "legendre" none = .ok g₁ ∧
    Integrator.new exFresh freshI (fun _ _ => .ok [1 / 2]) idealCsFunction loopO [1 / 2, 1] 1 "legendre" none = .ok g₂ ∧
    Integrator.new exFresh freshI (fun _ _ => .ok [1 / 2]) idealCsFunction loopO [1, 1 / 2, 0] 1 "legendre" none = .ok g' ∧
    g.call idealRoot ⟨1, 1, fun _ _ => a⟩ z u p = .ok out ∧ g₁.call idealRoot ⟨1, 1, fun _ _ => a⟩ z u p = .ok out₁ ∧
    g₂.call idealRoot ⟨1, 1, fun _ _ => out₁.xf.e 0 0⟩ z u p = .ok out₂ ∧ g'.call idealRoot ⟨1, 1, fun _ _ => out.xf.e 0 1⟩ z u p = .ok out' ∧
    out₂.x.e 0 1 = out.x.e 0 2 ∧ out₂.Z.e 0 0 = out.Z.e 0 1 ∧ out.qf.e 0 0 = out₁.qf.e 0 0 + out₂.qf.e 0 0 ∧
    out'.xf.e 0 1 = a ∧ out'.qf.e 0 0 = -out.qf.e 0 0 := by
  have ht : ∀ n < ([0, 1 / 2, 1] : List ℝ).length - 1, |nd ([0, 1 / 2, 1] : List ℝ) (n + 1) - nd ([0, 1 / 2, 1] : List ℝ) n| ≤ 1 := by
    intro n hn
    have hn : n < 2 := hn
    interval_cases n <;> norm_num [nd, abs_le]
  have hfr : DistinctSyms exFresh := by constructor <;> decide
  obtain ⟨F, pre⟩ := loop_pre freshI hI [0, 1 / 2, 1] [1 / 2] (by simp) (by simp)
  obtain ⟨g, g₁, g₂, hg, hg₁, hg₂, hflow⟩ := C138_flow exFresh freshI _ _ _ _ _ _ _ _ _ _ _ _ idealCsFunction_spec pre hfr (.inl rfl) 1 1
    (1 / 2) (loop_index freshI).1 (by norm_num) _ (butcher_ok _) (loop_steps ht) 1 Nat.one_pos (by simp)
  obtain ⟨g0, g', hg0, hg', hback⟩ := C138_back exFresh freshI _ _ _ _ _ _ _ _ _ _ _ _ idealCsFunction_spec pre hfr (.inl rfl) 1 1
    (1 / 2) (loop_index freshI).1 (by norm_num) _ (butcher_ok _) (loop_steps ht) (by simp)
    (by intro j hj; obtain rfl : j = 0 := (by simpa using hj); norm_num [nd])
  rw [hg] at hg0
  cases hg0
  obtain ⟨_, out, h1, ho⟩ := loop_call freshI hI [0, 1 / 2, 1] (by simp) ht ⟨1, 1, fun _ _ => a⟩ z u p
  obtain ⟨_, out₁, h2, ho₁⟩ := loop_call freshI hI [0, 1 / 2] (by simp) (by
    intro n hn; obtain rfl : n = 0 := (by simpa using hn); norm_num [nd, abs_le]) ⟨1, 1, fun _ _ => a⟩ z u p
  obtain ⟨_, out₂, h3, ho₂⟩ := loop_call freshI hI [1 / 2, 1] (by simp) (by
    intro n hn; obtain rfl : n = 0 := (by simpa using hn); norm_num [nd, abs_le]) ⟨1, 1, fun _ _ => out₁.xf.e 0 0⟩ z u p
  obtain ⟨_, out', h4, ho'⟩ := loop_call freshI hI [1, 1 / 2, 0] (by simp) (by
    intro n hn
    have hn : n < 2 := hn
    interval_cases n <;> norm_num [nd, abs_le]) ⟨1, 1, fun _ _ => out.xf.e 0 1⟩ z u p
  have e1 : Except.ok _ = Except.ok _ := hg.symm.trans h1
  have e2 : Except.ok _ = Except.ok _ := hg₁.symm.trans h2
  have e3 : Except.ok _ = Except.ok _ := hg₂.symm.trans h3
  have e4 : Except.ok _ = Except.ok _ := hg'.symm.trans h4
  cases e1
  cases e2
  cases e3
  cases e4
  obtain ⟨-, f2, f3⟩ := hflow _ _ _ idealRoot_spec idealRoot_spec idealRoot_spec _ _ _ _ _ _ _ _ _ _ _ _ _ _ _ ho ho₁ ho₂
    (fun i _ => rfl) (fun n _ k hk => rfl) (fun i _ => rfl)
    (fun i hi => by obtain rfl : i = 0 := Nat.lt_one_iff.mp hi; rfl) (fun n _ k hk => absurd hk (Nat.not_lt_zero _)) (fun i _ => rfl)
  obtain ⟨b1, -, b3⟩ := hback _ _ idealRoot_spec idealRoot_spec _ _ _ _ _ _ _ _ _ _ ho ho'
    (fun i hi => by obtain rfl : i = 0 := Nat.lt_one_iff.mp hi; rfl) (fun n _ k hk => absurd hk (Nat.not_lt_zero _)) (fun i _ => rfl)
  exact ⟨g, g₁, g₂, g', out, out₁, out₂, out', hg, hg₁, hg₂, hg', ho, ho₁, ho₂, ho', f2.x 1 (by simp) 0 Nat.one_pos,
    f2.Z 0 (by simp) 0 Nat.one_pos, f3 0 Nat.one_pos, b1 0 Nat.one_pos, b3 0 Nat.one_pos⟩

/-- Two root finders and two guesses of the algebraic state, one result. -/
example (freshI : String → ℕ) (hI : 7 ≤ freshI "xdot") (rf : (List ℝ → List ℝ) → List ℝ → Except PyErr (List ℝ)) (hrf : IsRootfinder rf)
    (x0 z0 z0' u p : Mat ℝ) : ∃ g,
    Integrator.new exFresh freshI (fun _ _ => .ok [1 / 2]) idealCsFunction loopO [0, 1 / 2, 1] 1 "legendre" none = .ok g ∧
    ∃ out, g.call idealRoot x0 z0 u p = .ok out ∧ ∀ out', g.call rf x0 z0' u p = .ok out' → out'.x.e 0 2 = out.x.e 0 2 := by
  have ht : ∀ n < ([0, 1 / 2, 1] : List ℝ).length - 1, |nd ([0, 1 / 2, 1] : List ℝ) (n + 1) - nd ([0, 1 / 2, 1] : List ℝ) n| ≤ 1 := by
    intro n hn
    have hn : n < 2 := hn
    interval_cases n <;> norm_num [nd, abs_le]
  obtain ⟨F, pre⟩ := loop_pre freshI hI [0, 1 / 2, 1] [1 / 2] (by simp) (by simp)
  obtain ⟨g, hg, key⟩ := C138_determined exFresh freshI _ _ _ _ _ _ _ _ _ _ _ _ idealCsFunction_spec pre (by constructor <;> decide)
    (.inl rfl) 1 1 (1 / 2) (loop_index freshI).1 (by norm_num) _ (butcher_ok _) (loop_steps ht)
  obtain ⟨_, out, h1, ho⟩ := loop_call freshI hI [0, 1 / 2, 1] (by simp) ht x0 z0 u p
  have e1 : Except.ok _ = Except.ok _ := hg.symm.trans h1
  cases e1
  exact ⟨g, hg, out, ho, fun out' ho' => (key _ _ idealRoot_spec hrf _ _ _ _ _ _ _ _ _ _ ho ho' (fun _ _ => rfl) (fun _ _ _ _ => rfl)
    (fun _ _ => rfl)).1.x 2 (by simp) 0 Nat.one_pos⟩

/-- One step of the implicit Euler method for `x' = -z`, `0 = z - x`. -/
theorem loop_euler (freshI : String → ℕ) (hI : 7 ≤ freshI "xdot") (t0 t1 : ℝ) : ∃ g,
    Integrator.new exFresh freshI (fun _ _ => .ok [1]) idealCsFunction loopO [t0, t1] 1 "radau" none = .ok g ∧
    ∀ rf, IsRootfinder rf → ∀ x0 z0 u p out, g.call rf x0 z0 u p = .ok out → (1 + (t1 - t0)) * out.xf.e 0 0 = x0.e 0 0 := by
  obtain ⟨F, pre0⟩ := loop_pre freshI hI [t0, t1] [1] (by simp) (by simp)
  have pre : SchemePre freshI (fun _ _ => .ok [1]) idealCsFunction loopO [t0, t1] ([1] : List ℝ).length "radau" none (loopD freshI)
      (.sym (freshI "xdot") 1) (loopRes freshI) [1] F :=
    ⟨pre0.impl, pre0.wf, pre0.p, pre0.quad, pre0.two, pre0.pos, pre0.points, pre0.len, pre0.tdpFun, pre0.fn⟩
  have hw : wA ([1] : List ℝ) 0 0 = 1 ∧ wb ([1] : List ℝ) 0 = 1 := by
    obtain ⟨T, hT, hA, hB, -⟩ := C09_butcher_consistent ([1] : List ℝ) (by simp) (by simp)
    obtain ⟨T', hT', -, -, -, hc, -⟩ := C08_butcher_exact ([1] : List ℝ) (by simp)
    rw [hT] at hT'
    cases hT'
    rw [butcher_ok] at hT
    cases hT
    constructor
    · have := hA 0 (by simp)
      rw [hc 0 (by simp)] at this
      simpa [wA, NdArray.mat2, nd] using this
    · have : ((butcherPoly ([1] : List ℝ) 0).polyint).eval 1 = 1 := by simpa [NdArray.vec] using hB
      exact this
  obtain ⟨hA, hB⟩ := hw
  obtain ⟨g, s, hg, hs, hcall⟩ := integrator_calls exFresh freshI _ _ _ _ _ _ _ _ _ _ _ _ pre (by constructor <;> decide) (.inl rfl)
  refine ⟨g, hg, fun rf hrf x0 z0 u p out ho => ?_⟩
  obtain ⟨env, e1, e2, -, -, -, e6, -⟩ := hcall rf hrf _ _ _ _ _ ho
  have b := pre.built hs
  have hc : 0 < (([t0, t1] : List ℝ).length - 1) * ([1] : List ℝ).length := by simp
  obtain ⟨r, c, -⟩ := (Scheme.eq_zero_iff pre b env).mp e1
  obtain ⟨e, a⟩ := exists_atPoint idealCsFunction_spec pre b.toCore env hc
  have h0 := (loop_zero freshI e).mp ((residual_iff exFresh freshI _ _ _ _ _ _ _ _ _ _ _ _ _ s idealCsFunction_spec pre b hc a).mp (r 0 hc))
  have v := a.vals pre b.toCore
  have hk : e (freshI "xdot") 0 0 = env 1 0 0 := v.xdot 0 Nat.one_pos
  have hX : e 0 0 0 = s.X.val env 0 0 := v.x 0 Nat.one_pos
  have hXv := b.X env 0 0 0 (by simp) (by simp)
  have hcont := c 0 (by simp) 0 Nat.one_pos
  have hcv := b.cont env 0 0 (by simp)
  rw [hcont] at hcv
  have hx0 := e2 0 Nat.one_pos
  rw [b.x] at hx0
  have hx0 : env 0 0 0 = x0.e 0 0 := hx0
  have hxf : out.xf.e 0 0 = env 0 0 1 := by rw [e6, b.x]; rfl
  simp only [List.length_singleton, mul_one, zero_add, Finset.sum_range_one, hA, hB] at hXv hcv
  have hn : nd [t0, t1] 1 - nd [t0, t1] 0 = t1 - t0 := by simp [nd]
  rw [hn] at hXv hcv
  have hX' : s.X.val env 0 0 = env 0 0 0 + (t1 - t0) * env 1 0 0 := hXv
  have hc' : env 0 0 1 = env 0 0 0 + (t1 - t0) * env 1 0 0 := by
    have hcv : 0 = env 0 0 0 + (t1 - t0) * env 1 0 0 - env 0 0 1 := hcv
    linarith
  rw [hxf, ← hx0]
  have : env 1 0 0 = -env 0 0 1 := by rw [← hk, h0.1, h0.2, hX, hX', hc']
  rw [this] at hc'
  linarith

/-- Without symmetric nodes the way back leads elsewhere: with the implicit Euler method, half a unit of time forwards and backwards
takes `x' = -z`, `0 = z - x` from `1` to `4/3`. -/
example (freshI : String → ℕ) (hI : 7 ≤ freshI "xdot") : ∃ g g',
    Integrator.new exFresh freshI (fun _ _ => .ok [1]) idealCsFunction loopO [0, 1 / 2] 1 "radau" none = .ok g ∧
    Integrator.new exFresh freshI (fun _ _ => .ok [1]) idealCsFunction loopO [1 / 2, 0] 1 "radau" none = .ok g' ∧
    ∀ rf, IsRootfinder rf → ∀ z0 z0' u p out out', g.call rf ⟨1, 1, fun _ _ => 1⟩ z0 u p = .ok out →
      g'.call rf ⟨1, 1, fun _ _ => out.xf.e 0 0⟩ z0' u p = .ok out' → out'.xf.e 0 0 = 4 / 3 := by
  obtain ⟨g, hg, h⟩ := loop_euler freshI hI 0 (1 / 2)
  obtain ⟨g', hg', h'⟩ := loop_euler freshI hI (1 / 2) 0
  refine ⟨g, g', hg, hg', fun rf hrf z0 z0' u p out out' ho ho' => ?_⟩
  have h1 := h rf hrf _ _ _ _ _ ho
  have h2 := h' rf hrf _ _ _ _ _ ho'
  simp only at h1 h2
  linarith

end CE
