import Verif.Num.PropsInexact

/-!
# Property C98: the root search of the integrator for contractive models
-/

open Set

namespace CE

/-- The model determines the state derivative and the algebraic state, and they are Lipschitz continuous functions of the state on every
bounded set, with a constant that may depend on the set and on the inputs, parameters and time. -/
structure LocLipschitzDae (d : DaeObj ℝ) (xdot res : MXExpr ℝ) : Prop where
  solvable : Solvable d xdot res
  lipschitz : ∀ (e₀ : Env ℝ) (R : ℝ), ∃ L : ℝ, ∀ e e' : Env ℝ, ResidualZero res e → ResidualZero res e' →
    SameInputs d e₀ e → SameInputs d e₀ e' → (∀ i < d.nx, |d.x.val e i 0| ≤ R ∧ |d.x.val e' i 0| ≤ R) →
    ∀ δ, 0 ≤ δ → (∀ i < d.nx, |d.x.val e i 0 - d.x.val e' i 0| ≤ δ) →
      (∀ i < d.nx, |xdot.val e i 0 - xdot.val e' i 0| ≤ L * δ) ∧ ∀ k < d.nz, |d.z.val e k 0 - d.z.val e' k 0| ≤ L * δ

/-- Equal states have equal algebraic states. -/
theorem LocLipschitzDae.z_eq {d : DaeObj ℝ} {xdot res : MXExpr ℝ} (lip : LocLipschitzDae d xdot res) {e e' : Env ℝ}
    (r : ResidualZero res e) (r' : ResidualZero res e') (h : SameInputs d e e')
    (hx : ∀ i < d.nx, d.x.val e i 0 = d.x.val e' i 0) : ∀ k < d.nz, d.z.val e k 0 = d.z.val e' k 0 := by
  intro k hk
  obtain ⟨L, hL⟩ := lip.lipschitz e (∑ i ∈ Finset.range d.nx, |d.x.val e i 0|)
  have hb : ∀ i < d.nx, |d.x.val e i 0| ≤ ∑ i ∈ Finset.range d.nx, |d.x.val e i 0| := fun i hi =>
    Finset.single_le_sum (f := fun i => |d.x.val e i 0|) (fun _ _ => abs_nonneg _) (Finset.mem_range.mpr hi)
  have := (hL e e' r r' (SameInputs.refl d e) h (fun i hi => ⟨hb i hi, by rw [← hx i hi]; exact hb i hi⟩) 0 le_rfl
    (fun i hi => by rw [hx i hi, sub_self, abs_zero])).2 k hk
  rw [mul_zero] at this
  exact sub_eq_zero.mp (abs_nonpos_iff.mp this)

/-- Assignments with the same inputs, parameters and times for the values of `PointVals`. -/
theorem PointVals.sameInputs {d : DaeObj ℝ} {xdot : MXExpr ℝ} {v ξ w v' ξ' w' u p : ℕ → ℝ} {τ : ℝ} {q : ℕ → ℕ → ℝ} {e e' : Env ℝ}
    (hu : d.nu = d.u.rows) (hp : d.np = d.p.rows)
    (h : PointVals d xdot v ξ w u p τ q e) (h' : PointVals d xdot v' ξ' w' u p τ q e') : SameInputs d e e' :=
  ⟨fun i hi => by rw [h.u i (hu ▸ hi), h'.u i (hu ▸ hi)], fun i hi => by rw [h.p i (hp ▸ hi), h'.p i (hp ▸ hi)], by rw [h.t, h'.t],
    fun i hi j hj => by rw [h.tdp i hi j hj, h'.tdp i hi j hj]⟩

section
variable (fresh freshI : String → ℕ) (casadiPoints : ℕ → String → Except PyErr (List ℝ))
    (csFunction : List (MXExpr ℝ) → List (MXExpr ℝ) → Except PyErr (CsFn ℝ))
    (dae : DaeObj ℝ) (t : List ℝ) (order : ℕ) (method : String) (tdp_fun : Option (ℝ → Mat ℝ))
    (d : DaeObj ℝ) (xdot res : MXExpr ℝ) (tau : List ℝ) (F : CsFn ℝ) (rep : Bool) (s : Scheme ℝ)

/-- **C98** (existence) For a contractive model, with or without algebraic states, that determines the state derivative and the algebraic
state as functions of the state which are Lipschitz continuous on bounded sets, and for Gauss or Radau nodes, the collocation equations
have a solution with given initial state, inputs and parameter, whatever the lengths of the intervals. -/
theorem C98_exists (hcs : IsCsFunction csFunction)
    (pre : SchemePre freshI casadiPoints csFunction dae t order method tdp_fun d xdot res tau F)
    (hs : Scheme.new fresh freshI casadiPoints csFunction dae t order method tdp_fun rep = .ok s)
    (hf : [fresh "x", fresh "K", fresh "Z", fresh "u", fresh "P"].Nodup) (lip : LocLipschitzDae d xdot res)
    (hnode : IsGauss tau ∨ IsRadau tau) (S : ℕ → ℕ → ℝ) (hpd : PosDefForm S d.nx)
    (law : Contractive d xdot res S) (ht : ∀ n < s.N, nd t n < nd t (n + 1))
    (env : Env ℝ) (hrep : rep = true → ∀ c < s.N * s.M, ∀ i < d.np, s.p.val env i c = s.p.val env i 0) (x0 : ℕ → ℝ) :
    ∃ env', (∀ v ∈ s.eq.vals env', v = 0) ∧ (∀ i, s.x.val env' i 0 = x0 i) ∧
      (∀ i n, s.u.val env' i n = s.u.val env i n) ∧ (∀ i c, s.p.val env' i c = s.p.val env i c) := by
  have b := pre.built hs
  have hlen := pre.len
  have hnx := pre.wf.nx
  have hnu : d.nu = d.u.rows := pre.wf.nu
  have hnp : d.np = d.p.rows := by simp [DaeObj.np, MXExpr.numel, pre.p]
  rw [b.N_eq] at ht
  rw [b.N_eq, b.M_eq] at hrep
  choose G W hGW using fun c (ξ : ℕ → ℝ) => lip.solvable ξ (fun i => env (fresh "u") i (c / order))
    (fun i => env (fresh "P") i (if rep then c else 0)) (nd s.tc c) (tdpAt tdp_fun (nd s.tc c)).e
  have hpt : ∀ n j, n < t.length - 1 → j < order → ∀ ξ, ∃ e, PointVals d xdot (G (n * order + j) ξ) ξ (W (n * order + j) ξ)
      (fun i => env (fresh "u") i n) (fun i => env (fresh "P") i (if rep then n * order + j else 0)) (nd s.tc (n * order + j))
      (tdpAt tdp_fun (nd s.tc (n * order + j))).e e ∧ ResidualZero res e := by
    intro n j hn hj ξ
    obtain ⟨e, he⟩ := exists_pointVals fresh freshI casadiPoints csFunction dae t order method tdp_fun d xdot res tau F rep s hcs pre b hf
      env hn hj (G (n * order + j) ξ) ξ (W (n * order + j) ξ)
    exact ⟨e, he, hGW _ ξ e (by rw [div_block hj]; exact he)⟩
  refine exists_of_stages fresh freshI casadiPoints csFunction dae t order method tdp_fun d xdot res tau F rep s hcs pre b hf env hrep x0 G W
    hGW fun n ξ₀ => ?_
  by_cases hn : n < t.length - 1
  · obtain ⟨k, hk⟩ := stage_exists tau hnode (by rw [hlen]; exact pre.pos) S d.nx hpd (nd t (n + 1) - nd t n)
      (sub_pos.mpr (ht n hn)) (fun j => G (n * order + j)) (fun j hj R => by
        rw [hlen] at hj
        obtain ⟨e₀, p₀, -⟩ := hpt n j hn hj ξ₀
        obtain ⟨L, hL⟩ := lip.lipschitz e₀ R
        refine ⟨L, fun ξ ξ' hR δ hδ i hi => ?_⟩
        obtain ⟨e, pe, re⟩ := hpt n j hn hj ξ
        obtain ⟨e', pe', re'⟩ := hpt n j hn hj ξ'
        have := (hL e e' re re' (p₀.sameInputs hnu hnp pe) (p₀.sameInputs hnu hnp pe') (fun i hi => by
          rw [pe.x i (hnx ▸ hi), pe'.x i (hnx ▸ hi)]; exact hR i hi) δ ((abs_nonneg _).trans (hδ i hi)) (fun i hi => by
          rw [pe.x i (hnx ▸ hi), pe'.x i (hnx ▸ hi)]; exact hδ i hi)).1 i hi
        rwa [pe.xdot i (hnx ▸ hi), pe'.xdot i (hnx ▸ hi)] at this) (fun j hj ξ ξ' => by
        rw [hlen] at hj
        obtain ⟨e, pe, re⟩ := hpt n j hn hj ξ
        obtain ⟨e', pe', re'⟩ := hpt n j hn hj ξ'
        have si := pe.sameInputs hnu hnp pe'
        refine le_trans (le_of_eq ?_) (law e e' re re' si.u si.p si.t si.tdp)
        refine Finset.sum_congr rfl fun i hi => Finset.sum_congr rfl fun l hl => ?_
        have hi : i < d.x.rows := hnx ▸ Finset.mem_range.mp hi
        have hl : l < d.x.rows := hnx ▸ Finset.mem_range.mp hl
        rw [pe.xdot i hi, pe'.xdot i hi, pe.xdot l hl, pe'.xdot l hl, pe.x i hi, pe'.x i hi, pe.x l hl, pe'.x l hl]) ξ₀
    rw [hlen] at hk
    exact ⟨k, fun _ => by rw [← hnx]; exact hk⟩
  · exact ⟨fun _ _ => 0, fun h => absurd h hn⟩

/-- A solution of the collocation equations as a vector of unknowns of the integrator. -/
theorem exists_root (hcs : IsCsFunction csFunction)
    (pre : SchemePre freshI casadiPoints csFunction dae t order method tdp_fun d xdot res tau F)
    (b : s.Built fresh t order tdp_fun false d xdot res tau F) (hfr : DistinctSyms fresh) (env : Env ℝ)
    (heq : ∀ v ∈ s.eq.vals env, v = 0) (u p : Mat ℝ) (hu : ∀ i n, s.u.val env i n = u.e i n) (hp : ∀ i c, s.p.val env i c = p.e i c) :
    ∃ w : List ℝ, w.length = s.x.numel + s.Kd.numel + s.Z.numel ∧
      (∀ v ∈ s.eq.vals (Integrator.envOf fresh s w u p), v = 0) ∧
      ∀ i < d.nx, ∀ n < t.length, s.x.val (Integrator.envOf fresh s w u p) i n = s.x.val env i n := by
  have hnx := pre.wf.nx
  have htwo := pre.two
  have hxr : s.x.rows = d.nx ∧ s.x.cols = t.length - 1 + 1 := by rw [b.x]; exact ⟨pre.wf.nx.symm, rfl⟩
  have hKr : s.Kd.rows = d.nx ∧ s.Kd.cols = (t.length - 1) * order := by rw [b.Kd]; exact ⟨pre.wf.nx.symm, rfl⟩
  have hZr : s.Z.rows = d.z.rows ∧ s.Z.cols = (t.length - 1) * order := by rw [b.Z]; exact ⟨rfl, rfl⟩
  let w : List ℝ := (s.x.at' env).vals ++ (s.Kd.at' env).vals ++ (s.Z.at' env).vals
  have hwl : w.length = s.x.numel + s.Kd.numel + s.Z.numel := by
    simp only [w, List.length_append, Mat.vals_length]
    rfl
  set env' := Integrator.envOf fresh s w u p with henv'
  have wx : ∀ i < d.nx, ∀ n < t.length, env' (fresh "x") i n = s.x.val env i n := by
    intro i hi n hn
    have := Mat.ofVec_vals (s.x.at' env) [] ((s.Kd.at' env).vals ++ (s.Z.at' env).vals) (a := 0) rfl (i := i) (j := n)
      (by change i < s.x.rows; rw [hxr.1]; exact hi) (by change n < s.x.cols; rw [hxr.2]; omega)
    rw [List.nil_append, ← List.append_assoc] at this
    rw [henv', Integrator.envOf, if_pos rfl]
    exact this
  have wK : ∀ i < d.nx, ∀ c < (t.length - 1) * order, env' (fresh "K") i c = s.Kd.val env i c := by
    intro i hi c hc
    have := Mat.ofVec_vals (s.Kd.at' env) (s.x.at' env).vals (s.Z.at' env).vals (a := s.x.numel)
      (Mat.vals_length (s.x.at' env)).symm (i := i) (j := c)
      (by change i < s.Kd.rows; rw [hKr.1]; exact hi) (by change c < s.Kd.cols; rw [hKr.2]; exact hc)
    rw [henv', Integrator.envOf, if_neg hfr.xK.symm, if_pos rfl]
    exact this
  have wZ : ∀ i < d.z.rows, ∀ c < (t.length - 1) * order, env' (fresh "Z") i c = s.Z.val env i c := by
    intro i hi c hc
    have := Mat.ofVec_vals (s.Z.at' env) ((s.x.at' env).vals ++ (s.Kd.at' env).vals) [] (a := s.x.numel + s.Kd.numel)
      (by rw [List.length_append, Mat.vals_length, Mat.vals_length]; rfl) (i := i) (j := c)
      (by change i < s.Z.rows; rw [hZr.1]; exact hi) (by change c < s.Z.cols; rw [hZr.2]; exact hc)
    rw [List.append_nil] at this
    rw [henv', Integrator.envOf, if_neg hfr.xZ.symm, if_neg hfr.KZ.symm, if_pos rfl]
    exact this
  have eu : env' (fresh "u") = u.e := by
    rw [henv', Integrator.envOf, if_neg hfr.xu.symm, if_neg hfr.Ku.symm, if_neg hfr.Zu.symm, if_pos rfl]
  have ep : env' (fresh "P") = p.e := by
    rw [henv', Integrator.envOf, if_neg hfr.xP.symm, if_neg hfr.KP.symm, if_neg hfr.ZP.symm, if_neg hfr.uP.symm, if_pos rfl]
  have vx : ∀ e i n, s.x.val e i n = e (fresh "x") i n := fun e i n => by rw [b.x]; rfl
  have vK : ∀ e i n, s.Kd.val e i n = e (fresh "K") i n := fun e i n => by rw [b.Kd]; rfl
  have vZ : ∀ e i n, s.Z.val e i n = e (fresh "Z") i n := fun e i n => by rw [b.Z]; rfl
  have vu : ∀ e i n, s.u.val e i n = e (fresh "u") i n := fun e i n => by rw [b.u]; rfl
  have vp : ∀ e i n, s.p.val e i n = e (fresh "P") i n := fun e i n => by rw [b.p]; rfl
  have wsum : ∀ i < d.nx, ∀ n < t.length - 1, ∀ v : ℕ → ℝ,
      ∑ k ∈ Finset.range order, env' (fresh "K") i (n * order + k) * v k =
        ∑ k ∈ Finset.range order, env (fresh "K") i (n * order + k) * v k := fun i hi n hn v =>
    Finset.sum_congr rfl fun k hk => by rw [wK i hi _ (block_lt hn (Finset.mem_range.mp hk)), vK]
  obtain ⟨r, cont, -⟩ := (Scheme.eq_zero_iff pre b env).mp heq
  refine ⟨w, hwl, (Scheme.eq_zero_iff pre b _).mpr ⟨fun c hc => ?_, fun n hn i hi => ?_, fun h => by cases h⟩, fun i hi n hn => ?_⟩
  · obtain ⟨e, a⟩ := exists_atPoint hcs pre b.toCore env hc
    have a' : AtPoint s d xdot tdp_fun false env' e c := by
      refine ⟨fun i hi => ?_, fun i hi => ?_, fun i hi => ?_, fun i hi => ?_, fun i hi => ?_, a.t, a.tdp⟩
      · rw [a.xdot i hi, vK env', wK i (hnx ▸ hi) c hc]
      · have hj := Nat.mod_lt c pre.pos
        have hn : c / order < t.length - 1 := Nat.div_lt_of_lt_mul (by rwa [Nat.mul_comm])
        have e1 := b.X env i (c / order) (c % order) hn hj
        have e2 := b.X env' i (c / order) (c % order) hn hj
        rw [Nat.div_add_mod'] at e1 e2
        rw [a.x i hi, e1, e2, wx i (hnx ▸ hi) _ (by omega), wsum i (hnx ▸ hi) _ hn, vx]
      · rw [a.z i hi, vZ env', wZ i hi c hc]
      · rw [a.u i hi, vu env', eu, hu]
      · rw [a.p i hi, vp env', ep, hp]
    exact (residual_iff fresh freshI casadiPoints csFunction dae t order method tdp_fun d xdot res tau F false s hcs pre b hc a').mpr
      ((residual_iff fresh freshI casadiPoints csFunction dae t order method tdp_fun d xdot res tau F false s hcs pre b hc a).mp (r c hc))
  · have h := cont n hn i hi
    rw [b.cont env i n hn] at h
    rw [← henv', b.cont env' i n hn, wx i hi _ (by omega), wx i hi _ (by omega), wsum i hi n hn, vx, vx]
    exact h
  · rw [← henv', vx env', wx i hi n hn]

/-- **C98** (root) For such a model the equations of the root search of the integrator have exactly one solution, for all initial states,
inputs and parameters and all increasing grids. -/
theorem C98_unique_root (hcs : IsCsFunction csFunction)
    (pre : SchemePre freshI casadiPoints csFunction dae t order method tdp_fun d xdot res tau F)
    (hfr : DistinctSyms fresh) (hpq : dae.np = 0 ∨ dae.nq = 0) (lip : LocLipschitzDae d xdot res)
    (hnode : IsGauss tau ∨ IsRadau tau) (S : ℕ → ℕ → ℝ) (hpd : PosDefForm S d.nx)
    (law : Contractive d xdot res S) (ht : ∀ n < t.length - 1, nd t n < nd t (n + 1)) :
    ∃ g, Integrator.new fresh freshI casadiPoints csFunction dae t order method tdp_fun = .ok g ∧
      ∀ x0 z0 u p, ∃ w, (w.length = (g.w0 x0 z0).length ∧ ∀ v ∈ g.residual w x0 u p, v = 0) ∧
        ∀ w', w'.length = (g.w0 x0 z0).length → (∀ v ∈ g.residual w' x0 u p, v = 0) → w' = w := by
  obtain ⟨s, x1, hs, -, hx1v, hnew⟩ := integrator_new fresh freshI casadiPoints csFunction dae t order method tdp_fun d xdot res tau F
    pre
  rw [if_neg (by omega)] at hnew
  have b := pre.built hs
  obtain ⟨px, -⟩ := makeImplicit_parts pre.impl
  have hnx : dae.nx = d.nx := by simp [DaeObj.nx, px]
  have hnx' := pre.wf.nx
  have htwo := pre.two
  have hf : [fresh "x", fresh "K", fresh "Z", fresh "u", fresh "P"].Nodup := by
    simp [hfr.xK, hfr.xZ, hfr.xu, hfr.xP, hfr.KZ, hfr.Ku, hfr.KP, hfr.Zu, hfr.ZP, hfr.uP]
  have hxr : s.x.rows = d.nx ∧ s.x.cols = t.length - 1 + 1 := by rw [b.x]; exact ⟨pre.wf.nx.symm, rfl⟩
  have hKr : s.Kd.rows = d.nx ∧ s.Kd.cols = (t.length - 1) * order := by rw [b.Kd]; exact ⟨pre.wf.nx.symm, rfl⟩
  have hZr : s.Z.rows = d.nz ∧ s.Z.cols = (t.length - 1) * order := by rw [b.Z]; exact ⟨pre.wf.nz.symm, rfl⟩
  have hlen : ∀ x0 z0 : Mat ℝ, ((⟨s.x.rows, s.x.cols, fun i _ => x0.e i 0⟩ : Mat ℝ).vals ++
      (⟨s.Kd.rows, s.Kd.cols, fun _ _ => 0⟩ : Mat ℝ).vals ++
      (⟨s.Z.rows, s.Z.cols, fun i _ => z0.e i 0⟩ : Mat ℝ).vals).length = s.x.numel + s.Kd.numel + s.Z.numel := by
    intro x0 z0
    simp only [List.length_append, Mat.vals_length]
    rfl
  refine ⟨_, hnew, fun x0 z0 u p => ?_⟩
  simp only [hlen]
  have eu : ∀ w i n, s.u.val (Integrator.envOf fresh s w u p) i n = u.e i n := by
    intro w i n
    rw [b.u]
    show Integrator.envOf fresh s w u p (fresh "u") i n = _
    rw [Integrator.envOf, if_neg hfr.xu.symm, if_neg hfr.Ku.symm, if_neg hfr.Zu.symm, if_pos rfl]
  have ep : ∀ w i n, s.p.val (Integrator.envOf fresh s w u p) i n = p.e i n := by
    intro w i n
    rw [b.p]
    show Integrator.envOf fresh s w u p (fresh "P") i n = _
    rw [Integrator.envOf, if_neg hfr.xP.symm, if_neg hfr.KP.symm, if_neg hfr.ZP.symm, if_neg hfr.uP.symm, if_pos rfl]
  obtain ⟨env, heq, hx, hu, hp⟩ := C98_exists fresh freshI casadiPoints csFunction dae t order method tdp_fun d xdot res tau F false s hcs
    pre hs hf lip hnode S hpd law (by rw [b.N_eq]; exact ht) (Integrator.envOf fresh s [] u p) (fun h => by cases h) (fun i => x0.e i 0)
  obtain ⟨w, hwl, hw, hwx⟩ := exists_root fresh freshI casadiPoints csFunction dae t order method tdp_fun d xdot res tau F s hcs pre b hfr
    env heq u p (fun i n => by rw [hu, eu]) (fun i n => by rw [hp, ep])
  refine ⟨w, ⟨hwl, fun v hv => ?_⟩, fun w' hw' hr' => ?_⟩
  · rcases List.mem_append.mp hv with h | h
    · exact hw v h
    · obtain ⟨i, hi, rfl⟩ := List.mem_map.mp h
      have hi := List.mem_range.mp hi
      rw [hx1v, hwx i (by omega) 0 (by omega), hx, sub_self]
  · have hr := fun v hv => hr' v (List.mem_append_left _ hv)
    have hx' : ∀ i < d.nx, s.x.val (Integrator.envOf fresh s w' u p) i 0 = s.x.val (Integrator.envOf fresh s w u p) i 0 := by
      intro i hi
      have := hr' (x1.val (Integrator.envOf fresh s w' u p) i 0 - x0.e i 0)
        (List.mem_append_right _ (List.mem_map.mpr ⟨i, List.mem_range.mpr (by omega), rfl⟩))
      rw [hx1v] at this
      rw [sub_eq_zero.mp this, hwx i hi 0 (by omega), hx]
    obtain ⟨ux, uK⟩ := C95_unique fresh freshI casadiPoints csFunction dae t order method tdp_fun d xdot res tau F false s hcs
      pre hs hnode S hpd law (by rw [b.N_eq]; exact ht) (Integrator.envOf fresh s w' u p) (Integrator.envOf fresh s w u p) hr hw hx'
      (fun n hn i hi => by rw [eu, eu]) (fun i hi => by rw [ep, ep])
    rw [b.N_eq] at ux uK
    rw [b.M_eq] at uK
    have uZ : ∀ c < (t.length - 1) * order, ∀ k < d.nz,
        s.Z.val (Integrator.envOf fresh s w' u p) k c = s.Z.val (Integrator.envOf fresh s w u p) k c := by
      intro c hc k hk
      obtain ⟨e₁, a₁⟩ := exists_atPoint hcs pre b.toCore (Integrator.envOf fresh s w' u p) hc
      obtain ⟨e₂, a₂⟩ := exists_atPoint hcs pre b.toCore (Integrator.envOf fresh s w u p) hc
      have r₁ := (residual_iff fresh freshI casadiPoints csFunction dae t order method tdp_fun d xdot res tau F false s hcs pre b hc a₁).mp
        (((Scheme.eq_zero_iff pre b _).mp hr).1 c hc)
      have r₂ := (residual_iff fresh freshI casadiPoints csFunction dae t order method tdp_fun d xdot res tau F false s hcs pre b hc a₂).mp
        (((Scheme.eq_zero_iff pre b _).mp hw).1 c hc)
      have si := sameInputs_atPoint fresh freshI casadiPoints csFunction dae t order method tdp_fun d xdot res tau F false s pre b c _ _
        e₁ e₂ a₁ a₂ (fun i _ => by rw [eu, eu]) (fun i _ => by rw [ep, ep])
      have := lip.z_eq r₁ r₂ si (fun i hi => by
        rw [a₁.x i (hnx' ▸ hi), a₂.x i (hnx' ▸ hi)]
        exact (uK c hc i hi).2) k hk
      rwa [a₁.z k (pre.wf.nz ▸ hk), a₂.z k (pre.wf.nz ▸ hk)] at this
    rw [b.x] at ux
    rw [b.Kd] at uK
    rw [b.Z] at uZ
    have ex : ∀ w, Integrator.envOf fresh s w u p (fresh "x") = (Mat.ofVec w 0 s.x.rows s.x.cols).e := by
      intro w
      rw [Integrator.envOf, if_pos rfl]
    have eK : ∀ w, Integrator.envOf fresh s w u p (fresh "K") = (Mat.ofVec w s.x.numel s.Kd.rows s.Kd.cols).e := by
      intro w
      rw [Integrator.envOf, if_neg hfr.xK.symm, if_pos rfl]
    have eZ : ∀ w, Integrator.envOf fresh s w u p (fresh "Z") = (Mat.ofVec w (s.x.numel + s.Kd.numel) s.Z.rows s.Z.cols).e := by
      intro w
      rw [Integrator.envOf, if_neg hfr.xZ.symm, if_neg hfr.KZ.symm, if_pos rfl]
    refine List.ext_getElem (by rw [hw', hwl]) fun k h1 h2 => ?_
    rw [← nd_eq_getElem h1, ← nd_eq_getElem h2]
    have hk : k < s.x.numel + s.Kd.numel + s.Z.numel := by rw [← hwl]; exact h2
    rcases Nat.lt_or_ge k s.x.numel with h | h
    · obtain ⟨a1, a2, a3⟩ := nd_eq_ofVec w' 0 s.x.rows s.x.cols k h
      have b3 := (nd_eq_ofVec w 0 s.x.rows s.x.cols k h).2.2
      rw [Nat.zero_add, ← ex] at a3 b3
      rw [hxr.1] at a1
      rw [hxr.2] at a2
      rw [a3, b3]
      exact ux _ (by omega) _ (by rw [hxr.1]; exact a1)
    rcases Nat.lt_or_ge k (s.x.numel + s.Kd.numel) with h' | h'
    · obtain ⟨m, rfl⟩ := Nat.exists_eq_add_of_le h
      have hm : m < s.Kd.rows * s.Kd.cols := by
        have : m < s.Kd.numel := by omega
        exact this
      obtain ⟨a1, a2, a3⟩ := nd_eq_ofVec w' s.x.numel s.Kd.rows s.Kd.cols m hm
      have b3 := (nd_eq_ofVec w s.x.numel s.Kd.rows s.Kd.cols m hm).2.2
      rw [← eK] at a3 b3
      rw [hKr.1] at a1
      rw [hKr.2] at a2
      rw [a3, b3]
      exact (uK _ a2 _ (by rw [hKr.1]; exact a1)).1
    · obtain ⟨m, rfl⟩ := Nat.exists_eq_add_of_le h'
      have hm : m < s.Z.rows * s.Z.cols := by
        have : m < s.Z.numel := by omega
        exact this
      obtain ⟨a1, a2, a3⟩ := nd_eq_ofVec w' (s.x.numel + s.Kd.numel) s.Z.rows s.Z.cols m hm
      have b3 := (nd_eq_ofVec w (s.x.numel + s.Kd.numel) s.Z.rows s.Z.cols m hm).2.2
      rw [← eZ] at a3 b3
      rw [hZr.1] at a1
      rw [hZr.2] at a2
      rw [a3, b3]
      exact uZ _ a2 _ (by rw [hZr.1]; exact a1)

end

/-- An ordinary differential equation that is contractive for all values is contractive. -/
theorem ContractiveOde.contractive' {d : DaeObj ℝ} {xdot res ode : MXExpr ℝ} {S : ℕ → ℕ → ℝ} (con : ContractiveOde d xdot res ode S)
    (hc : res.cols = 1) : Contractive d xdot res S := by
  intro e e' r r' hu hp ht htdp
  have hx : ∀ e, ResidualZero res e → ∀ i < d.nx, xdot.val e i 0 = ode.val e i 0 := fun e r i hi => by
    have h := con.explicit e i hi
    rw [r i (lt_of_lt_of_le hi con.rows) 0 (by rw [hc]; exact Nat.one_pos)] at h
    exact (sub_eq_zero.mp h.symm)
  refine le_trans (le_of_eq ?_) (con.contractive e e' ⟨hu, hp, ht, htdp⟩)
  refine Finset.sum_congr rfl fun i hi => Finset.sum_congr rfl fun l hl => ?_
  rw [hx e r i (Finset.mem_range.mp hi), hx e' r' i (Finset.mem_range.mp hi), hx e r l (Finset.mem_range.mp hl),
    hx e' r' l (Finset.mem_range.mp hl)]

/-- **C98** (accuracy) One constant for all contractive ordinary differential equations: with a root finder that solves the equations up to
the tolerance `tol`, the states that the integrator returns differ from the exact solution at most by the constant times
`e0 + B*(t-t0)*H^M + (t-t0+n+1)*tol`, for steps of any length. -/
theorem C98_integrator (tau : List ℝ) (hnode : IsGauss tau ∨ IsRadau tau) (S : ℕ → ℕ → ℝ) (m : ℕ) (hpd : PosDefForm S m) :
    ∃ C ≥ 0, ∀ (fresh freshI : String → ℕ) (casadiPoints : ℕ → String → Except PyErr (List ℝ))
      (csFunction : List (MXExpr ℝ) → List (MXExpr ℝ) → Except PyErr (CsFn ℝ))
      (dae : DaeObj ℝ) (t : List ℝ) (order : ℕ) (method : String) (tdp_fun : Option (ℝ → Mat ℝ))
      (d : DaeObj ℝ) (xdot res ode : MXExpr ℝ) (F : CsFn ℝ), IsCsFunction csFunction →
      SchemePre freshI casadiPoints csFunction dae t order method tdp_fun d xdot res tau F →
      DistinctSyms fresh → dae.np = 0 ∨ dae.nq = 0 → d.nx = m → ContractiveOde d xdot res ode S → LocLipschitzDae d xdot res →
      ∀ H, (∀ n < t.length - 1, nd t n < nd t (n + 1) ∧ nd t (n + 1) - nd t n ≤ H) →
      ∀ (rootfinder : (List ℝ → List ℝ) → List ℝ → Except PyErr (List ℝ)) (tol : ℝ), 0 ≤ tol →
      (∀ f w0 sol, rootfinder f w0 = .ok sol → ∀ v ∈ f sol, |v| ≤ tol) →
      ∃ g, Integrator.new fresh freshI casadiPoints csFunction dae t order method tdp_fun = .ok g ∧
      ∀ x0 z0 u p out, g.call rootfinder x0 z0 u p = .ok out →
      ∀ (y : ℕ → ℝ → ℝ) (f ζ : ℕ → ℕ → ℝ → ℝ), ExactDae d xdot res tdp_fun t u.e (fun i => p.e i 0) y f ζ →
      ∀ B, 0 ≤ B → (∀ n < t.length - 1, ∀ i < m, ContDiffOn ℝ order (f n i) (Icc (nd t n) (nd t (n + 1)))) →
      (∀ n < t.length - 1, ∀ i < m, ∀ τ ∈ Icc (nd t n) (nd t (n + 1)),
        |iteratedDerivWithin order (f n i) (Icc (nd t n) (nd t (n + 1))) τ| ≤ B) →
      ∀ ε, 0 ≤ ε → (∀ i < m, |x0.e i 0 - y i (nd t 0)| ≤ ε) →
      let bound := fun n : ℕ => C * (ε + B * (nd t n - nd t 0) * H ^ order + (nd t n - nd t 0 + n + 1) * tol)
      (∀ n < t.length, ∀ i < m, |out.x.e i n - y i (nd t n)| ≤ bound n) ∧
      ∀ n < t.length - 1, ∀ i < m, |out.xf.e i n - y i (nd t (n + 1))| ≤ bound (n + 1) := by
  obtain ⟨C₁, hC₁, h96⟩ := C96_components tau hnode S m hpd
  obtain ⟨C₂, hC₂, h97⟩ := C97_contractive tau hnode S m hpd
  obtain ⟨c, hc, hmax⟩ := qnorm_le_max S m
  obtain ⟨c', hc', hmin⟩ := max_le_qnorm S m hpd
  refine ⟨C₁ + c' * (c + C₂), by positivity, fun fresh freshI casadiPoints csFunction dae t order method tdp_fun d xdot res ode F hcs pre hfr hpq
    hm con lip H ht rootfinder tol htol hrf => ?_⟩
  obtain ⟨s, x1, hs, -, hx1v, hnew⟩ := integrator_new fresh freshI casadiPoints csFunction dae t order method tdp_fun d xdot res tau F
    pre
  rw [if_neg (by omega)] at hnew
  have b := pre.built hs
  obtain ⟨px, -⟩ := makeImplicit_parts pre.impl
  have hnx : dae.nx = d.nx := by simp [DaeObj.nx, px]
  have hf : [fresh "x", fresh "K", fresh "Z", fresh "u", fresh "P"].Nodup := by
    simp [hfr.xK, hfr.xZ, hfr.xu, hfr.xP, hfr.KZ, hfr.Ku, hfr.KP, hfr.Zu, hfr.ZP, hfr.uP]
  have htwo := pre.two
  have law := con.contractive' pre.wf.res_cols
  refine ⟨_, hnew, ?_⟩
  intro x0 z0 u p out hout y f ζ hex B hB0 hsm hB ε hε h0 bound
  unfold Integrator.call at hout
  simp only [bind, Except.bind] at hout
  split at hout
  · cases hout
  rename_i sol hsol'
  have hroot := hrf _ _ _ hsol'
  have hout := Except.ok.inj hout
  set env := Integrator.envOf fresh s sol u p with henv
  have hu : s.u.val env = u.e := by
    rw [b.u]
    show Integrator.envOf fresh s sol u p (fresh "u") = _
    rw [Integrator.envOf, if_neg hfr.xu.symm, if_neg hfr.Ku.symm, if_neg hfr.Zu.symm, if_pos rfl]
  have hp : s.p.val env = p.e := by
    rw [b.p]
    show Integrator.envOf fresh s sol u p (fresh "P") = _
    rw [Integrator.envOf, if_neg hfr.xP.symm, if_neg hfr.KP.symm, if_neg hfr.ZP.symm, if_neg hfr.uP.symm, if_pos rfl]
  obtain ⟨env', heq', hx', hu', hp'⟩ := C98_exists fresh freshI casadiPoints csFunction dae t order method tdp_fun d xdot res tau F false s
    hcs pre hs hf lip hnode S (hm ▸ hpd) law (by rw [b.N_eq]; exact fun n hn => (ht n hn).1) env (fun h => by cases h) (fun i => x0.e i 0)
  have hu'' : s.u.val env' = u.e := by
    rw [← hu]
    funext i n
    exact hu' i n
  have hp'' : s.p.val env' = p.e := by
    rw [← hp]
    funext i n
    exact hp' i n
  have hinit : ∀ i < m, |s.x.val env i 0 - s.x.val env' i 0| ≤ tol := by
    intro i hi
    have := hroot (x1.val env i 0 - x0.e i 0)
      (List.mem_append_right _ (List.mem_map.mpr ⟨i, List.mem_range.mpr (by omega), rfl⟩))
    rwa [hx1v, ← hx' i] at this
  have k1 := (h97 fresh freshI casadiPoints csFunction dae t order method tdp_fun d xdot res ode F false s hcs pre hs hm con
    (by rw [b.N_eq]; exact fun n hn => (ht n hn).1) env env' tol 0 htol le_rfl (fun v hv => hroot v (List.mem_append_left _ hv))
    (fun v hv => by rw [heq' v hv, abs_zero]) (fun n _ i _ => (hu' i n).symm) (fun n _ i _ => (hp' i n).symm)).1
  have k2 := (h96 fresh freshI casadiPoints csFunction dae t order method tdp_fun d xdot res F false s hcs pre hs hf hm law H
    (by rw [b.N_eq]; exact ht) env' heq' y f ζ (by rw [hu'', hp'']; exact hex) B hB0 (by rw [b.N_eq, b.M_eq]; exact hsm)
    (by rw [b.N_eq, b.M_eq]; exact hB) ε hε (fun i hi => by rw [hx' i]; exact h0 i hi)).1
  have hi0 := hmax _ tol htol hinit
  rw [b.N_eq] at k1 k2
  rw [b.M_eq] at k2
  have hmono : ∀ n ≤ t.length - 1, 0 ≤ nd t n - nd t 0 := by
    intro n
    induction n with
    | zero => intro _; simp
    | succ n ih =>
      intro hn
      have := (ht n hn).1
      have := ih (by omega)
      linarith
  have hH : 0 ≤ H := by
    have := ht 0 (by omega)
    linarith [this.1, this.2]
  have key : ∀ n ≤ t.length - 1, ∀ i < m, |s.x.val env i n - y i (nd t n)| ≤ bound n := by
    intro n hn i hi
    have g0 := hmono n hn
    have g1 := hmin (fun i => s.x.val env i n - s.x.val env' i n) i hi
    have g2 := mul_le_mul_of_nonneg_left ((k1 n hn).trans (add_le_add hi0 le_rfl)) hc'
    have g3 := k2 n hn i hi
    have g4 : s.x.val env i n - y i (nd t n) = (s.x.val env i n - s.x.val env' i n) + (s.x.val env' i n - y i (nd t n)) := by ring
    rw [g4]
    refine (abs_add_le _ _).trans ((add_le_add (g1.trans g2) g3).trans ?_)
    have q0 : (0 : ℝ) ≤ n := Nat.cast_nonneg n
    have q1 : 0 ≤ C₁ * ((nd t n - nd t 0 + n + 1) * tol) := by positivity
    have q2 : 0 ≤ c' * (c + C₂) * (ε + B * (nd t n - nd t 0) * H ^ order) := by positivity
    have q3 : 0 ≤ c' * c * ((nd t n - nd t 0 + n) * tol) := by positivity
    have q4 : 0 ≤ c' * C₂ * tol := by positivity
    simp only [bound, add_zero]
    linarith
  rw [← hout]
  exact ⟨fun n hn i hi => key n (by omega) i hi, fun n hn i hi => key (n + 1) (by omega) i hi⟩

/-! ## Non-vacuity -/

/-- `x' = -z`, `0 = z - x` is contractive and determines the derivative and the algebraic state. -/
theorem loop_locLipschitz (freshI : String → ℕ) :
    LocLipschitzDae (loopD freshI) (.sym (freshI "xdot") 1) (loopRes freshI) ∧
    Contractive (loopD freshI) (.sym (freshI "xdot") 1) (loopRes freshI) (fun _ _ => 1) := by
  have reg := loop_regular freshI
  have ix := reg.indexOne rfl
  refine ⟨⟨(loop_index freshI).2, fun e₀ R => ⟨1, fun e e' r r' h h' _ δ hδ0 hδ => ?_⟩⟩, fun e e' r r' _ _ _ _ => ?_⟩
  · have si := h.symm.trans h'
    exact ix.lipschitz e e' r r' si.u si.p si.t si.tdp δ hδ0 hδ
  · have h := (loop_zero freshI e).mp r
    have h' := (loop_zero freshI e').mp r'
    show ∑ i ∈ Finset.range 1, ∑ j ∈ Finset.range 1, _ ≤ _
    simp only [Finset.sum_range_one, one_mul, loopD, MXExpr.sym]
    rw [h.1, h'.1, h.2, h'.2]
    nlinarith [sq_nonneg (e 0 0 0 - e' 0 0 0)]

/-- `x' = cos(t) - λ*(x - sin(t))` determines the derivative. -/
theorem stiff_locLipschitz (l : ℝ) (hl : 0 ≤ l) (freshI : String → ℕ) :
    LocLipschitzDae (stiffD l freshI) (.sym (freshI "xdot") 1) (stiffRes l freshI) := by
  refine ⟨fun ξ u p τ q => ⟨fun _ => Real.cos τ - l * (ξ 0 - Real.sin τ), fun _ => 0, fun e he => ?_⟩, fun e₀ R => ⟨l, ?_⟩⟩
  · have h1 : e (freshI "xdot") 0 0 = _ := he.xdot 0 Nat.one_pos
    have h2 : e 0 0 0 = _ := he.x 0 Nat.one_pos
    have h3 : e 4 0 0 = _ := he.t
    rw [stiff_zero, h1, h2, h3]
  · intro e e' r r' h h' _ δ hδ0 hδ
    refine ⟨fun i hi => ?_, fun k hk => absurd hk (Nat.not_lt_zero _)⟩
    obtain rfl : i = 0 := by change i < 1 at hi; omega
    have h1 := (stiff_zero l freshI e).mp r
    have h2 := (stiff_zero l freshI e').mp r'
    have ht : e 4 0 0 = e' 4 0 0 := (h.symm.trans h').t
    have hx : |e 0 0 0 - e' 0 0 0| ≤ δ := hδ 0 Nat.one_pos
    show |e (freshI "xdot") 0 0 - e' (freshI "xdot") 0 0| ≤ _
    rw [h1, h2, ht, show ∀ a b c s : ℝ, c - l * (a - s) - (c - l * (b - s)) = -(l * (a - b)) from fun a b c s => by ring, abs_neg, abs_mul,
      abs_of_nonneg hl]
    exact mul_le_mul_of_nonneg_left hx hl

/-- The root search for `x' = -z`, `0 = z - x` has exactly one solution for all Gauss and Radau nodes and all increasing grids. -/
example (tau : List ℝ) (hnode : IsGauss tau ∨ IsRadau tau) (hpos : 0 < tau.length) (freshI : String → ℕ) (hI : 7 ≤ freshI "xdot")
    (t : List ℝ) (two : 2 ≤ t.length) (ht : ∀ n < t.length - 1, nd t n < nd t (n + 1)) :
    ∃ g, Integrator.new exFresh freshI (fun _ _ => .ok tau) idealCsFunction loopO t tau.length "legendre" none = .ok g ∧
      ∀ x0 z0 u p, ∃! w : List ℝ, w.length = (g.w0 x0 z0).length ∧ ∀ v ∈ g.residual w x0 u p, v = 0 := by
  have hq : PosDefForm (fun _ _ => 1) (loopD freshI).nx := by
    rintro v ⟨i, hi, hv⟩
    obtain rfl : i = 0 := by change i < 1 at hi; omega
    show 0 < ∑ i ∈ Finset.range 1, ∑ j ∈ Finset.range 1, _
    simp only [Finset.sum_range_one, one_mul]
    exact mul_self_pos.mpr hv
  obtain ⟨F, pre⟩ := loop_pre freshI hI t tau two hpos
  obtain ⟨g, hg, h⟩ := C98_unique_root exFresh freshI _ _ _ _ _ _ _ _ _ _ _ _ idealCsFunction_spec pre (by constructor <;> decide) (.inl rfl)
    (loop_locLipschitz freshI).1 hnode _ hq (loop_locLipschitz freshI).2 ht
  refine ⟨g, hg, fun x0 z0 u p => ?_⟩
  obtain ⟨w, hw, hu⟩ := h x0 z0 u p
  exact ⟨w, hw, fun w' hw' => hu w' hw'.1 hw'.2⟩

/-- One constant for all `λ >= 0`: with a root finder that solves the equations up to `tol`, the states that the integrator returns for
`x' = cos(t) - λ*(x - sin(t))` from `0` differ from `sin(t)` at most by the constant times `t*H^M + (t+n+1)*tol`. -/
example (tau : List ℝ) (hnode : IsGauss tau ∨ IsRadau tau) (hpos : 0 < tau.length) (freshI : String → ℕ) (hI : 7 ≤ freshI "xdot") :
    ∃ C ≥ 0, ∀ (l : ℝ) (t : List ℝ) (H : ℝ), 0 ≤ l → 2 ≤ t.length → nd t 0 = 0 →
      (∀ n < t.length - 1, nd t n < nd t (n + 1) ∧ nd t (n + 1) - nd t n ≤ H) →
      ∀ (rf : (List ℝ → List ℝ) → List ℝ → Except PyErr (List ℝ)) (tol : ℝ), 0 ≤ tol →
      (∀ f w0 sol, rf f w0 = .ok sol → ∀ v ∈ f sol, |v| ≤ tol) → ∃ g,
      Integrator.new exFresh freshI (fun _ _ => .ok tau) idealCsFunction (stiffO l) t tau.length "legendre" none = .ok g ∧
      ∀ z0 u p out, g.call rf ⟨1, 1, fun _ _ => 0⟩ z0 u p = .ok out →
        ∀ n < t.length, |out.x.e 0 n - Real.sin (nd t n)| ≤ C * (nd t n * H ^ tau.length + (nd t n + n + 1) * tol) := by
  have hq : PosDefForm (fun _ _ => 1) 1 := by
    rintro v ⟨i, hi, hv⟩
    obtain rfl : i = 0 := by omega
    show 0 < ∑ i ∈ Finset.range 1, ∑ j ∈ Finset.range 1, _
    simp only [Finset.sum_range_one, one_mul]
    exact mul_self_pos.mpr hv
  obtain ⟨C, hC, h98⟩ := C98_integrator tau hnode (fun _ _ => 1) 1 hq
  refine ⟨C, hC, fun l t H hl two h0 ht rf tol htol hrf => ?_⟩
  obtain ⟨F, pre⟩ := stiff_pre l freshI hI t tau two hpos
  obtain ⟨g, hg, h⟩ := h98 exFresh freshI _ _ _ _ _ _ _ _ _ _ _ _ idealCsFunction_spec pre (by constructor <;> decide) (.inl rfl) rfl
    (stiff_contractiveOde l hl freshI) (stiff_locLipschitz l hl freshI) H ht rf tol htol hrf
  refine ⟨g, hg, fun z0 u p out hout n hn => ?_⟩
  have key := (h _ z0 u p out hout (fun _ τ => Real.sin τ) (fun _ _ τ => Real.cos τ) (fun _ _ _ => 0)
    ⟨fun n _ i _ τ _ => (Real.hasDerivAt_sin τ).hasDerivWithinAt, fun n _ τ _ e h => (stiff_zero l freshI e).mpr (by
      have h1 := h.xdot 0 Nat.one_pos
      have h2 := h.x 0 Nat.one_pos
      have h3 := h.t
      simp only [stiffD, MXExpr.sym] at h1 h2 h3
      rw [h1, h2, h3]
      ring)⟩ 1 zero_le_one (fun n _ i _ => Real.contDiff_cos.contDiffOn) (fun n hn i _ τ hτ => by
        rw [iteratedDerivWithin_eq_iteratedDeriv (uniqueDiffOn_Icc (ht n hn).1) Real.contDiff_cos.contDiffAt hτ]
        exact (abs_iteratedDeriv_trig _ τ).2) 0 le_rfl (fun i hi => by
        rw [h0, Real.sin_zero, sub_self, abs_zero])).1 n hn 0 Nat.one_pos
  rw [h0] at key
  simpa using key

end CE
