import Verif.Num.PropsConverge2
import Verif.Num.PropsGuess

/-!
# Property C84: the integrator for ordinary differential equations
-/

open Set

namespace CE

/-! ## Lemmas -/

/-- An element of a vector is an element of one of the matrices that are read from it. -/
theorem nd_eq_ofVec {K : Type} [Field K] (w : List K) (a r c k : ℕ) (hk : k < r * c) :
    k % r < r ∧ k / r < c ∧ nd w (a + k) = (Mat.ofVec w a r c).e (k % r) (k / r) := by
  have hr : 0 < r := Nat.pos_of_ne_zero (by rintro rfl; simp at hk)
  refine ⟨Nat.mod_lt _ hr, Nat.div_lt_of_lt_mul hk, ?_⟩
  show nd w (a + k) = nd w (a + k / r * r + k % r)
  rw [Nat.add_assoc, Nat.div_add_mod']

section
variable (fresh freshI : String → ℕ) (casadiPoints : ℕ → String → Except PyErr (List ℝ))
    (csFunction : List (MXExpr ℝ) → List (MXExpr ℝ) → Except PyErr (CsFn ℝ))
    (dae : DaeObj ℝ) (t : List ℝ) (order : ℕ) (method : String) (tdp_fun : Option (ℝ → Mat ℝ))
    (d : DaeObj ℝ) (xdot res : MXExpr ℝ) (tau : List ℝ) (F : CsFn ℝ)

/-- **C84** (root) For an ordinary differential equation with Lipschitz right-hand side and steps that are short enough, the equations
of the root search of the integrator have exactly one solution, for all initial states, inputs and parameters. -/
theorem C84_unique_root (hcs : IsCsFunction csFunction)
    (pre : SchemePre freshI casadiPoints csFunction dae t order method tdp_fun d xdot res tau F)
    (hfr : DistinctSyms fresh) (hpq : dae.np = 0 ∨ dae.nq = 0) (ode : MXExpr ℝ) (L θ : ℝ) (lip : LipschitzOde d xdot res ode L)
    (hθ : θ < 1) (T : ButcherTableau ℝ) (hT : butcherTableuForCollocationPoints tau = .ok T)
    (hstep : ∀ n < t.length - 1, ∀ j < order, L * (|nd t (n + 1) - nd t n| * ∑ k ∈ Finset.range order, |T.A.e [j, k]|) ≤ θ) :
    ∃ g, Integrator.new fresh freshI casadiPoints csFunction dae t order method tdp_fun = .ok g ∧
      ∀ x0 z0 u p, ∃ w, (w.length = (g.w0 x0 z0).length ∧ ∀ v ∈ g.residual w x0 u p, v = 0) ∧
        ∀ w', w'.length = (g.w0 x0 z0).length → (∀ v ∈ g.residual w' x0 u p, v = 0) → w' = w := by
  obtain ⟨s, x1, hs, -, hx1v, hnew⟩ := integrator_new fresh freshI casadiPoints csFunction dae t order method tdp_fun d xdot res tau F
    pre
  rw [if_neg (by omega)] at hnew
  have b := pre.built hs
  obtain ⟨px, pz, -, pp, -, pq, -⟩ := makeImplicit_parts pre.impl
  have hnx : dae.nx = d.nx := by simp [DaeObj.nx, px]
  have hxr : s.x.rows = d.nx ∧ s.x.cols = t.length - 1 + 1 := by rw [b.x]; exact ⟨pre.wf.nx.symm, rfl⟩
  have hKr : s.Kd.rows = d.nx ∧ s.Kd.cols = (t.length - 1) * order := by rw [b.Kd]; exact ⟨pre.wf.nx.symm, rfl⟩
  have hZr : s.Z.rows = 0 := by rw [b.Z]; show d.z.rows = 0; rw [← pre.wf.nz]; exact lip.nz
  have htwo := pre.two
  have hf : [fresh "x", fresh "K", fresh "u", fresh "P"].Nodup := by
    simp [hfr.xK, hfr.xu, hfr.xP, hfr.Ku, hfr.KP, hfr.uP]
  have eu : ∀ w u p, Integrator.envOf fresh s w u p (fresh "u") = (u : Mat ℝ).e := by
    intro w u p
    unfold Integrator.envOf
    rw [if_neg hfr.xu.symm, if_neg hfr.Ku.symm, if_neg hfr.Zu.symm, if_pos rfl]
  have ep : ∀ w u p, Integrator.envOf fresh s w u p (fresh "P") = (p : Mat ℝ).e := by
    intro w u p
    unfold Integrator.envOf
    rw [if_neg hfr.xP.symm, if_neg hfr.KP.symm, if_neg hfr.ZP.symm, if_neg hfr.uP.symm, if_pos rfl]
  have ex : ∀ w u p, Integrator.envOf fresh s w u p (fresh "x") = (Mat.ofVec w 0 s.x.rows s.x.cols).e := by
    intro w u p
    unfold Integrator.envOf
    rw [if_pos rfl]
  have eK : ∀ w u p, Integrator.envOf fresh s w u p (fresh "K") = (Mat.ofVec w s.x.numel s.Kd.rows s.Kd.cols).e := by
    intro w u p
    unfold Integrator.envOf
    rw [if_neg hfr.xK.symm, if_pos rfl]
  have hlen : ∀ x0 z0 : Mat ℝ, ((⟨s.x.rows, s.x.cols, fun i _ => x0.e i 0⟩ : Mat ℝ).vals ++
      (⟨s.Kd.rows, s.Kd.cols, fun _ _ => 0⟩ : Mat ℝ).vals ++
      (⟨s.Z.rows, s.Z.cols, fun i _ => z0.e i 0⟩ : Mat ℝ).vals).length = s.x.numel + s.Kd.numel := by
    intro x0 z0
    simp [Mat.vals_length, hZr, MXExpr.numel]
  have hstep' : ∀ n < s.N, ∀ j < s.M, L * (|nd t (n + 1) - nd t n| * ∑ k ∈ Finset.range s.M, |T.A.e [j, k]|) ≤ θ := by
    rw [b.N_eq, b.M_eq]; exact hstep
  refine ⟨_, hnew, fun x0 z0 u p => ?_⟩
  simp only [hlen]
  set env0 := Integrator.envOf fresh s [] u p with henv0
  obtain ⟨env, heq, hx, hu, hp⟩ := C78_exists fresh freshI casadiPoints csFunction dae t order method tdp_fun d xdot res tau F false s hcs
    pre hs hf ode L θ lip hθ T hT hstep' env0 (fun h => by cases h) (fun i => x0.e i 0)
  obtain ⟨G, hG, hiff⟩ := exists_rhs fresh freshI casadiPoints csFunction dae t order method tdp_fun d xdot res tau F false s hcs pre b
    ode L lip hf env0
  have hu' : ∀ w, ∀ n < t.length - 1, ∀ i < d.nu, s.u.val (Integrator.envOf fresh s w u p) i n = s.u.val env0 i n := by
    intro w n _ i _
    rw [b.u]
    show Integrator.envOf fresh s w u p (fresh "u") i n = Integrator.envOf fresh s [] u p (fresh "u") i n
    rw [eu, eu]
  have hp' : ∀ w, ∀ c < (if (false : Bool) then (t.length - 1) * order else 1), ∀ i < d.np,
      s.p.val (Integrator.envOf fresh s w u p) i c = s.p.val env0 i c := by
    intro w c _ i _
    rw [b.p]
    show Integrator.envOf fresh s w u p (fresh "P") i c = Integrator.envOf fresh s [] u p (fresh "P") i c
    rw [ep, ep]
  -- the values of the solution as a vector
  let w : List ℝ := (s.x.at' env).vals ++ (s.Kd.at' env).vals
  have hwl : w.length = s.x.numel + s.Kd.numel := by
    simp only [w, List.length_append, Mat.vals_length]
    rfl
  have wx : ∀ i < d.nx, ∀ n < t.length, Integrator.envOf fresh s w u p (fresh "x") i n = env (fresh "x") i n := by
    intro i hi n hn
    rw [ex]
    have := Mat.ofVec_vals (s.x.at' env) [] (s.Kd.at' env).vals (a := 0) rfl (i := i) (j := n)
      (by change i < s.x.rows; rw [hxr.1]; exact hi) (by change n < s.x.cols; rw [hxr.2]; omega)
    rw [List.nil_append] at this
    refine this.trans ?_
    rw [b.x]
    rfl
  have wK : ∀ i < d.nx, ∀ c < (t.length - 1) * order, Integrator.envOf fresh s w u p (fresh "K") i c = env (fresh "K") i c := by
    intro i hi c hc
    rw [eK]
    have := Mat.ofVec_vals (s.Kd.at' env) (s.x.at' env).vals [] (a := s.x.numel)
      (Mat.vals_length (s.x.at' env)).symm (i := i) (j := c)
      (by change i < s.Kd.rows; rw [hKr.1]; exact hi) (by change c < s.Kd.cols; rw [hKr.2]; exact hc)
    rw [List.append_nil] at this
    refine this.trans ?_
    rw [b.Kd]
    rfl
  have wsum : ∀ i < d.nx, ∀ n < t.length - 1, ∀ v : ℕ → ℝ,
      ∑ k ∈ Finset.range order, Integrator.envOf fresh s w u p (fresh "K") i (n * order + k) * v k =
        ∑ k ∈ Finset.range order, env (fresh "K") i (n * order + k) * v k := fun i hi n hn v =>
    Finset.sum_congr rfl fun k hk => by rw [wK i hi _ (block_lt hn (Finset.mem_range.mp hk))]
  have hroot : ∀ v ∈ s.eq.vals (Integrator.envOf fresh s w u p), v = 0 := by
    obtain ⟨k1, k2, -⟩ := (hiff env (fun n _ i _ => hu i n) (fun c _ i _ => hp i c)).mp heq
    refine (hiff _ (hu' w) (hp' w)).mpr ⟨fun c hc i hi => ?_, fun n hn i hi => ?_, fun h => by cases h⟩
    · rw [wK i hi c hc, k1 c hc i hi]
      refine sub_eq_zero.mp (abs_nonpos_iff.mp ?_)
      have := hG c hc (fun i => s.X.val env i c) (fun i => s.X.val (Integrator.envOf fresh s w u p) i c) 0 (fun i hi => ?_) i hi
      · rwa [mul_zero] at this
      · have hj := Nat.mod_lt c pre.pos
        have hn : c / order < t.length - 1 := Nat.div_lt_of_lt_mul (by rwa [Nat.mul_comm])
        have e1 := b.X env i (c / order) (c % order) hn hj
        have e2 := b.X (Integrator.envOf fresh s w u p) i (c / order) (c % order) hn hj
        rw [Nat.div_add_mod'] at e1 e2
        rw [e1, e2, wx i hi _ (by omega), wsum i hi _ hn, sub_self, abs_zero]
    · rw [wx i hi _ (by omega), wx i hi _ (by omega), k2 n hn i hi, wsum i hi n hn]
  refine ⟨w, ⟨hwl, fun v hv => ?_⟩, fun w' hw' hr' => ?_⟩
  · rcases List.mem_append.mp hv with h | h
    · exact hroot v h
    · obtain ⟨i, hi, rfl⟩ := List.mem_map.mp h
      have hi := List.mem_range.mp hi
      rw [hnx] at hi
      have h0 := hx i
      rw [b.x] at h0
      rw [hx1v, b.x]
      show Integrator.envOf fresh s w u p (fresh "x") i 0 - _ = 0
      rw [wx i hi 0 (by omega), sub_eq_zero]
      exact h0
  · have hx' : ∀ i < d.nx, s.x.val (Integrator.envOf fresh s w' u p) i 0 = s.x.val env i 0 := by
      intro i hi
      have := hr' (x1.val (Integrator.envOf fresh s w' u p) i 0 - x0.e i 0)
        (List.mem_append_right _ (List.mem_map.mpr ⟨i, List.mem_range.mpr (by omega), rfl⟩))
      rw [hx1v] at this
      rw [sub_eq_zero.mp this, hx]
    obtain ⟨ux, uK⟩ := C78_unique fresh freshI casadiPoints csFunction dae t order method tdp_fun d xdot res tau F false s hcs
      pre hs hf ode L θ lip hθ T hT hstep' (Integrator.envOf fresh s w' u p) env (fun v hv => hr' v (List.mem_append_left _ hv)) heq hx'
      (fun n hn i hi => by rw [hu' w' n (by rw [← b.N_eq]; exact hn) i hi, hu])
      (fun i hi => by rw [hp' w' 0 (by simp) i hi, hp])
    rw [b.N_eq] at ux uK
    rw [b.M_eq] at uK
    rw [b.x] at ux
    rw [b.Kd] at uK
    refine List.ext_getElem (by rw [hw', hwl]) fun k h1 h2 => ?_
    rw [← nd_eq_getElem h1, ← nd_eq_getElem h2]
    have hk : k < s.x.numel + s.Kd.numel := by rw [← hwl]; exact h2
    rcases Nat.lt_or_ge k s.x.numel with h | h
    · obtain ⟨a1, a2, a3⟩ := nd_eq_ofVec w' 0 s.x.rows s.x.cols k h
      have b3 := (nd_eq_ofVec w 0 s.x.rows s.x.cols k h).2.2
      rw [Nat.zero_add, ← ex w' u p] at a3
      rw [Nat.zero_add, ← ex w u p] at b3
      rw [hxr.1] at a1
      rw [hxr.2] at a2
      rw [a3, b3, wx _ (by rw [hxr.1]; exact a1) _ (by omega)]
      exact ux _ (by omega) _ (by rw [hxr.1]; exact a1)
    · obtain ⟨m, rfl⟩ := Nat.exists_eq_add_of_le h
      have hm : m < s.Kd.rows * s.Kd.cols := by
        have : m < s.Kd.numel := by omega
        exact this
      obtain ⟨a1, a2, a3⟩ := nd_eq_ofVec w' s.x.numel s.Kd.rows s.Kd.cols m hm
      have b3 := (nd_eq_ofVec w s.x.numel s.Kd.rows s.Kd.cols m hm).2.2
      rw [← eK w' u p] at a3
      rw [← eK w u p] at b3
      rw [hKr.1] at a1
      rw [hKr.2] at a2
      rw [a3, b3, wK _ (by rw [hKr.1]; exact a1) _ a2]
      exact (uK _ a2 _ (by rw [hKr.1]; exact a1)).1

/-- **C84** (accuracy) The states that the integrator returns differ from the exact solution at most by the bounds of C83. -/
theorem C84_accuracy (hcs : IsCsFunction csFunction)
    (pre : SchemePre freshI casadiPoints csFunction dae t order method tdp_fun d xdot res tau F)
    (hfr : DistinctSyms fresh) (hpq : dae.np = 0 ∨ dae.nq = 0) (ode : MXExpr ℝ) (L θ : ℝ) (lip : LipschitzOde d xdot res ode L)
    (hd : tau.Nodup) (h01 : ∀ k < tau.length, nd tau k ∈ Icc (0 : ℝ) 1)
    (T : ButcherTableau ℝ) (hT : butcherTableuForCollocationPoints tau = .ok T) (α β H : ℝ)
    (hα : ∀ j < order, ∑ k ∈ Finset.range order, |T.A.e [j, k]| ≤ α) (hβ : ∑ k ∈ Finset.range order, |T.b.e [k]| ≤ β)
    (ht : ∀ n < t.length - 1, nd t n ≤ nd t (n + 1) ∧ nd t (n + 1) - nd t n ≤ H) (hθ : θ < 1) (hstep : L * (H * α) ≤ θ)
    (rootfinder : (List ℝ → List ℝ) → List ℝ → Except PyErr (List ℝ)) (hrf : IsRootfinder rootfinder) :
    ∃ g, Integrator.new fresh freshI casadiPoints csFunction dae t order method tdp_fun = .ok g ∧
      ∀ x0 z0 u p out, g.call rootfinder x0 z0 u p = .ok out →
      ∀ (y : ℕ → ℝ → ℝ) (f : ℕ → ℕ → ℝ → ℝ), ExactSolution d xdot res tdp_fun t u.e (fun i => p.e i 0) y f →
      ∀ B, 0 ≤ B → (∀ n < t.length - 1, ∀ i < d.nx, ContDiffOn ℝ order (f n i) (Icc (nd t n) (nd t (n + 1)))) →
      (∀ n < t.length - 1, ∀ i < d.nx, ∀ τ ∈ Icc (nd t n) (nd t (n + 1)),
        |iteratedDerivWithin order (f n i) (Icc (nd t n) (nd t (n + 1))) τ| ≤ B) →
      ∀ ε, 0 ≤ ε → (∀ i < d.nx, |x0.e i 0 - y i (nd t 0)| ≤ ε) →
      let Λ := β * L / (1 - θ)
      let D := B * H ^ order / ((order - 1).factorial : ℝ)
      let bound := fun n => Real.exp (Λ * (nd t n - nd t 0)) * (ε + (nd t n - nd t 0) * ((1 + β + Λ * H * (1 + α)) * D))
      (∀ n < t.length, ∀ i < d.nx, |out.x.e i n - y i (nd t n)| ≤ bound n) ∧
      (∀ n < t.length - 1, ∀ i < d.nx, |out.xf.e i n - y i (nd t (n + 1))| ≤ bound (n + 1)) ∧
      ∀ n < t.length - 1, ∀ j < order, ∀ i < d.nx,
        |out.X.e i (n * order + j) - y i (nd out.tc (n * order + j))| ≤ (bound n + H * (1 + α) * D) / (1 - θ) := by
  obtain ⟨s, x1, hs, -, hx1v, hnew⟩ := integrator_new fresh freshI casadiPoints csFunction dae t order method tdp_fun d xdot res tau F
    pre
  rw [if_neg (by omega)] at hnew
  have b := pre.built hs
  obtain ⟨px, -⟩ := makeImplicit_parts pre.impl
  have hnx : dae.nx = d.nx := by simp [DaeObj.nx, px]
  have hf : [fresh "x", fresh "K", fresh "u", fresh "P"].Nodup := by
    simp [hfr.xK, hfr.xu, hfr.xP, hfr.Ku, hfr.KP, hfr.uP]
  have htwo := pre.two
  refine ⟨_, hnew, ?_⟩
  intro x0 z0 u p out hout y f hex B hB0 hsm hB ε hε h0 Λ D bound
  unfold Integrator.call at hout
  simp only [bind, Except.bind] at hout
  split at hout
  · cases hout
  rename_i sol hsol
  have hroot := (hrf _ _ _ hsol).2
  have hout := Except.ok.inj hout
  set env := Integrator.envOf fresh s sol u p with henv
  have hu : s.u.val env = u.e := by
    rw [b.u]
    show Integrator.envOf fresh s sol u p (fresh "u") = _
    unfold Integrator.envOf
    rw [if_neg hfr.xu.symm, if_neg hfr.Ku.symm, if_neg hfr.Zu.symm, if_pos rfl]
  have hp : s.p.val env = p.e := by
    rw [b.p]
    show Integrator.envOf fresh s sol u p (fresh "P") = _
    unfold Integrator.envOf
    rw [if_neg hfr.xP.symm, if_neg hfr.KP.symm, if_neg hfr.ZP.symm, if_neg hfr.uP.symm, if_pos rfl]
  have hinit : ∀ i < d.nx, s.x.val env i 0 = x0.e i 0 := by
    intro i hi
    have := hroot (x1.val env i 0 - x0.e i 0)
      (List.mem_append_right _ (List.mem_map.mpr ⟨i, List.mem_range.mpr (by omega), rfl⟩))
    rw [hx1v] at this
    exact sub_eq_zero.mp this
  have key := C83_convergence fresh freshI casadiPoints csFunction dae t order method tdp_fun d xdot res tau F false s hcs pre hs hf ode
    L θ lip hd h01 T hT α β H (by rw [b.M_eq]; exact hα) (by rw [b.M_eq]; exact hβ) (by rw [b.N_eq]; exact ht) hθ hstep env
    (fun v hv => hroot v (List.mem_append_left _ hv)) y f (by rw [hu, hp]; exact hex) B ε (by rw [b.N_eq, b.M_eq]; exact hsm)
    (by rw [b.N_eq, b.M_eq]; exact hB) hB0 hε (fun i hi => by rw [hinit i hi]; exact h0 i hi)
  rw [b.N_eq, b.M_eq] at key
  rw [← hout]
  refine ⟨fun n hn i hi => key.1 n (by omega) i hi, fun n hn i hi => key.1 (n + 1) (by omega) i hi, key.2⟩
/-- **C84** (quadratures) If the states that the integrator returns at the collocation points differ from `y` at most by `E`, then `qf`
differs from the exact integrals along `y` at most by the bound of C83. -/
theorem C84_quadrature (hcs : IsCsFunction csFunction)
    (pre : SchemePre freshI casadiPoints csFunction dae t order method tdp_fun d xdot res tau F)
    (hfr : DistinctSyms fresh) (hpq : dae.np = 0 ∨ dae.nq = 0) (L : ℝ) (lip : LipschitzQuad d L)
    (hd : tau.Nodup) (h01 : ∀ k < tau.length, nd tau k ∈ Icc (0 : ℝ) 1)
    (T : ButcherTableau ℝ) (hT : butcherTableuForCollocationPoints tau = .ok T) (β H : ℝ)
    (hβ : ∑ k ∈ Finset.range order, |T.b.e [k]| ≤ β)
    (ht : ∀ n < t.length - 1, nd t n ≤ nd t (n + 1) ∧ nd t (n + 1) - nd t n ≤ H)
    (rootfinder : (List ℝ → List ℝ) → List ℝ → Except PyErr (List ℝ)) (hrf : IsRootfinder rootfinder) :
    ∃ g, Integrator.new fresh freshI casadiPoints csFunction dae t order method tdp_fun = .ok g ∧
      ∀ x0 z0 u p out, g.call rootfinder x0 z0 u p = .ok out →
      ∀ (y Y : ℕ → ℝ → ℝ) (q : ℕ → ℕ → ℝ → ℝ), ExactQuadrature d tdp_fun t u.e (fun i => p.e i 0) y Y q →
      ∀ B E, (∀ n < t.length - 1, ∀ k < d.nq, ContDiffOn ℝ order (q n k) (Icc (nd t n) (nd t (n + 1)))) →
      (∀ n < t.length - 1, ∀ k < d.nq, ∀ τ ∈ Icc (nd t n) (nd t (n + 1)),
        |iteratedDerivWithin order (q n k) (Icc (nd t n) (nd t (n + 1))) τ| ≤ B) →
      (∀ n < t.length - 1, ∀ j < order, ∀ i < d.nx, |out.X.e i (n * order + j) - y i (nd out.tc (n * order + j))| ≤ E) → 0 ≤ L * E →
      ∀ k < d.nq, |out.qf.e k 0 - (Y k (nd t (t.length - 1)) - Y k (nd t 0))| ≤
        (nd t (t.length - 1) - nd t 0) * (β * (L * E) + (1 + β) * (B * H ^ order / ((order - 1).factorial : ℝ))) := by
  obtain ⟨s, x1, hs, -, hx1v, hnew⟩ := integrator_new fresh freshI casadiPoints csFunction dae t order method tdp_fun d xdot res tau F
    pre
  rw [if_neg (by omega)] at hnew
  have b := pre.built hs
  have hf : [fresh "x", fresh "K", fresh "u", fresh "P"].Nodup := by
    simp [hfr.xK, hfr.xu, hfr.xP, hfr.Ku, hfr.KP, hfr.uP]
  refine ⟨_, hnew, ?_⟩
  intro x0 z0 u p out hout y Y q hex B E hsm hB hE hE0 k hk
  unfold Integrator.call at hout
  simp only [bind, Except.bind] at hout
  split at hout
  · cases hout
  rename_i sol hsol
  have hroot := (hrf _ _ _ hsol).2
  have hout := Except.ok.inj hout
  set env := Integrator.envOf fresh s sol u p with henv
  have hu : s.u.val env = u.e := by
    rw [b.u]
    show Integrator.envOf fresh s sol u p (fresh "u") = _
    unfold Integrator.envOf
    rw [if_neg hfr.xu.symm, if_neg hfr.Ku.symm, if_neg hfr.Zu.symm, if_pos rfl]
  have hp : s.p.val env = p.e := by
    rw [b.p]
    show Integrator.envOf fresh s sol u p (fresh "P") = _
    unfold Integrator.envOf
    rw [if_neg hfr.xP.symm, if_neg hfr.KP.symm, if_neg hfr.ZP.symm, if_neg hfr.uP.symm, if_pos rfl]
  rw [← hout] at hE
  have key := C83_quadrature fresh freshI casadiPoints csFunction dae t order method tdp_fun d xdot res tau F false s hcs pre hs hf L lip
    hd h01 T hT β H (by rw [b.M_eq]; exact hβ) (by rw [b.N_eq]; exact ht) env
    (fun v hv => hroot v (List.mem_append_left _ hv)) y Y q (by rw [hu, hp]; exact hex) B E (by rw [b.N_eq, b.M_eq]; exact hsm)
    (by rw [b.N_eq, b.M_eq]; exact hB) (by rw [b.N_eq, b.M_eq]; exact hE) hE0
  rw [b.N_eq, b.M_eq] at key
  rw [← hout]
  show |s.q.val env k (s.q.cols - 1) - _| ≤ _
  rw [b.q_shape.2, Nat.add_sub_cancel]
  exact key _ le_rfl k hk
end

/-! ## Non-vacuity -/

/-- The integrator of `x' = -x` with the midpoint rule and steps of at most `H <= 1` can be constructed, its equations have exactly one
solution, and with a root finder that finds it the final state differs from `exp(-t)` at most by `5*t*exp(2*t)*H`. -/
example (freshI : String → ℕ) (hI : 7 ≤ freshI "xdot") (t : List ℝ) (two : 2 ≤ t.length) (H : ℝ) (hH : H ≤ 1) (h0 : nd t 0 = 0)
    (ht : ∀ n < t.length - 1, nd t n < nd t (n + 1) ∧ nd t (n + 1) - nd t n ≤ H) :
    ∃ g, Integrator.new exFresh freshI (fun _ _ => .ok [1 / 2]) idealCsFunction decayO t 1 "legendre" none = .ok g ∧
      ∃ rootfinder, IsRootfinder rootfinder ∧ ∀ z0 u p, ∃ out, g.call rootfinder ⟨1, 1, fun _ _ => 1⟩ z0 u p = .ok out ∧
        |out.xf.e 0 (t.length - 2) - Real.exp (-nd t (t.length - 1))| ≤
          Real.exp (2 * nd t (t.length - 1)) * (nd t (t.length - 1) * (5 * H)) := by
  obtain ⟨F, pre⟩ := decay_pre freshI hI t [1 / 2] two (by simp)
  obtain ⟨T, hT, hA, hB, -⟩ := C09_butcher_consistent ([1 / 2] : List ℝ) (by simp) (by simp)
  obtain ⟨T', hT', -, -, -, hc, -⟩ := C08_butcher_exact ([1 / 2] : List ℝ) (by simp)
  rw [hT] at hT'
  cases hT'
  have hA0 : T.A.e [0, 0] = 1 / 2 := by
    have := hA 0 (by simp)
    rw [hc 0 (by simp)] at this
    simpa using this
  have hB0 : T.b.e [0] = 1 := by simpa using hB
  have hfr : DistinctSyms exFresh := by constructor <;> decide
  have hpos : ∀ n ≤ t.length - 1, 0 ≤ nd t n := by
    intro n
    induction n with
    | zero => intro _; exact h0.ge
    | succ n ih => intro hn; exact (ih (by omega)).trans (ht n (by omega)).1.le
  have hα : ∀ j < 1, ∑ k ∈ Finset.range 1, |T.A.e [j, k]| ≤ 1 / 2 := by
    intro j hj
    obtain rfl : j = 0 := by omega
    rw [Finset.sum_range_one, hA0]
    norm_num
  have hβ : ∑ k ∈ Finset.range 1, |T.b.e [k]| ≤ 1 := by
    rw [Finset.sum_range_one, hB0, abs_one]
  classical
  let rf : (List ℝ → List ℝ) → List ℝ → Except PyErr (List ℝ) := fun f w0 =>
    if h : ∃ w, w.length = w0.length ∧ ∀ v ∈ f w, v = 0 then .ok h.choose else .error .runtime
  have hrf : IsRootfinder rf := by
    intro f w0 sol hsol
    simp only [rf] at hsol
    split at hsol
    · rename_i h
      rw [← Except.ok.inj hsol]
      exact h.choose_spec
    · cases hsol
  obtain ⟨g, hg, hroot⟩ := C84_unique_root exFresh freshI _ _ _ _ _ _ _ _ _ _ _ _ idealCsFunction_spec pre hfr (.inl rfl) _ 1 (1 / 2)
    (decay_lipschitz freshI) (by norm_num) T hT (fun n hn j hj => by
      have h1 := hα j hj
      have h2 := ht n hn
      rw [one_mul, abs_of_pos (by linarith)]
      calc _ ≤ (1 : ℝ) * (1 / 2) := mul_le_mul (by linarith) h1 (Finset.sum_nonneg fun _ _ => abs_nonneg _) zero_le_one
        _ = 1 / 2 := one_mul _)
  obtain ⟨g', hg', hacc⟩ := C84_accuracy exFresh freshI _ _ _ _ _ _ _ _ _ _ _ _ idealCsFunction_spec pre hfr (.inl rfl) _ 1 (1 / 2)
    (decay_lipschitz freshI) (by simp) (by intro k hk; obtain rfl : k = 0 := (by simpa using hk); norm_num [nd]) T hT (1 / 2) 1 H hα hβ
    (fun n hn => ⟨(ht n hn).1.le, (ht n hn).2⟩) (by norm_num) (by linarith) rf hrf
  rw [hg] at hg'
  cases hg'
  refine ⟨g, hg, rf, hrf, fun z0 u p => ?_⟩
  obtain ⟨w, hw, -⟩ := hroot ⟨1, 1, fun _ _ => 1⟩ z0 u p
  have hcall : ∃ out, g.call rf ⟨1, 1, fun _ _ => 1⟩ z0 u p = .ok out := by
    have hr : ∃ sol, rf (fun w => g.residual w ⟨1, 1, fun _ _ => 1⟩ u p) (g.w0 ⟨1, 1, fun _ _ => 1⟩ z0) = .ok sol :=
      ⟨_, dif_pos ⟨w, hw⟩⟩
    obtain ⟨sol, hsol⟩ := hr
    unfold Integrator.call
    rw [hsol]
    exact ⟨_, rfl⟩
  obtain ⟨out, hout⟩ := hcall
  refine ⟨out, hout, ?_⟩
  obtain ⟨ex, sm, bd⟩ := decay_exact freshI t 1 u.e (fun i => p.e i 0) (fun n hn => ⟨hpos n (by omega), (ht n hn).1⟩)
  have := (hacc _ z0 u p out hout _ _ ex 1 zero_le_one (fun n hn i _ => sm n hn) (fun n hn i _ => bd n hn) 0 le_rfl (by
    intro i hi
    obtain rfl : i = 0 := by change i < 1 at hi; omega
    rw [h0]
    simp)).2.1 (t.length - 2) (by omega) 0 Nat.one_pos
  rw [show t.length - 2 + 1 = t.length - 1 by omega] at this
  refine this.trans ?_
  beta_reduce
  rw [h0, sub_zero]
  have hp := hpos (t.length - 1) le_rfl
  have hH0 : 0 ≤ H := by
    have := ht 0 (by omega)
    linarith [this.1, this.2]
  have e2 : (1 : ℝ) * 1 / (1 - 1 / 2) = 2 := by norm_num
  rw [e2]
  have : (1 + 1 + 2 * H * (1 + 1 / 2)) * (1 * H ^ ([1 / 2] : List ℝ).length / ((([1 / 2] : List ℝ).length - 1).factorial : ℝ)) ≤ 5 * H := by
    simp only [List.length_singleton, Nat.sub_self, Nat.factorial_zero, Nat.cast_one, div_one, pow_one, one_mul]
    nlinarith
  rw [zero_add]
  gcongr

/-- The returned integral of the state of `x' = -x` for the midpoint rule with steps of at most `H`. -/
example (freshI : String → ℕ) (hI : 7 ≤ freshI "xdot") (t : List ℝ) (two : 2 ≤ t.length) (H : ℝ) (h0 : nd t 0 = 0)
    (ht : ∀ n < t.length - 1, nd t n < nd t (n + 1) ∧ nd t (n + 1) - nd t n ≤ H)
    (rf : (List ℝ → List ℝ) → List ℝ → Except PyErr (List ℝ)) (hrf : IsRootfinder rf) :
    ∃ g, Integrator.new exFresh freshI (fun _ _ => .ok [1 / 2]) idealCsFunction decayO t 1 "legendre" none = .ok g ∧
      ∀ x0 z0 u p out, g.call rf x0 z0 u p = .ok out → ∀ E, 0 ≤ E →
      (∀ n < t.length - 1, |out.X.e 0 n - Real.exp (-nd out.tc n)| ≤ E) →
      |out.qf.e 0 0 - (1 - Real.exp (-nd t (t.length - 1)))| ≤ nd t (t.length - 1) * (E + 2 * H) := by
  obtain ⟨F, pre⟩ := decay_pre freshI hI t [1 / 2] two (by simp)
  obtain ⟨T, hT, -, hB, -⟩ := C09_butcher_consistent ([1 / 2] : List ℝ) (by simp) (by simp)
  have hB0 : T.b.e [0] = 1 := by simpa using hB
  have hfr : DistinctSyms exFresh := by constructor <;> decide
  have hpos : ∀ n ≤ t.length - 1, 0 ≤ nd t n := by
    intro n
    induction n with
    | zero => intro _; exact h0.ge
    | succ n ih => intro hn; exact (ih (by omega)).trans (ht n (by omega)).1.le
  have hsmooth : ContDiff ℝ 1 (fun τ : ℝ => Real.exp (-τ)) := Real.contDiff_exp.comp contDiff_neg
  obtain ⟨lq, -⟩ := decay_quadrature freshI t (fun _ _ => 0) (fun _ => 0)
  obtain ⟨g, hg, hq⟩ := C84_quadrature exFresh freshI _ _ _ _ _ _ _ _ _ _ _ _ idealCsFunction_spec pre hfr (.inl rfl) 1 lq (by simp)
    (by intro k hk; obtain rfl : k = 0 := (by simpa using hk); norm_num [nd]) T hT 1 H
    (by simp [hB0]) (fun n hn => ⟨(ht n hn).1.le, (ht n hn).2⟩) rf hrf
  refine ⟨g, hg, fun x0 z0 u p out hout E hE0 hE => ?_⟩
  obtain ⟨-, ex⟩ := decay_quadrature freshI t u.e (fun i => p.e i 0)
  have := hq x0 z0 u p out hout _ _ _ ex 1 E (fun n _ k _ => hsmooth.contDiffOn) (fun n hn k _ τ hτ => by
      change |iteratedDerivWithin 1 _ _ _| ≤ _
      rw [iteratedDerivWithin_eq_iteratedDeriv (uniqueDiffOn_Icc (ht n hn).1) (by exact_mod_cast hsmooth.contDiffAt) hτ,
        iteratedDeriv_one]
      have hdv : deriv (fun τ : ℝ => Real.exp (-τ)) τ = Real.exp (-τ) * -1 := ((hasDerivAt_neg τ).exp).deriv
      rw [hdv, mul_neg_one, abs_neg, Real.abs_exp]
      refine Real.exp_le_one_iff.mpr ?_
      have := hpos n (by omega)
      linarith [hτ.1])
    (fun n hn j hj i hi => by
      obtain rfl : i = 0 := by change i < 1 at hi; omega
      obtain rfl : j = 0 := by change j < 1 at hj; omega
      have := hE n hn
      simpa using this) (by rw [one_mul]; exact hE0) 0 Nat.one_pos
  rw [h0] at this
  simp only [List.length_singleton, neg_zero, Real.exp_zero, sub_zero, one_mul, pow_one, Nat.sub_self, Nat.factorial_zero, Nat.cast_one,
    div_one] at this
  rw [show (1 : ℝ) - Real.exp (-nd t (t.length - 1)) = -Real.exp (-nd t (t.length - 1)) - -1 by ring]
  refine this.trans (le_of_eq ?_)
  ring

end CE
