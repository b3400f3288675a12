import Verif.Num.PropsScheme2
import Verif.Num.PropsPiecewise2

/-!
# Properties C30 and C31: trajectory of the scheme and outputs of the integrator
-/

open Polynomial

namespace CE

/-! ## C30 -/

section
variable {K : Type} [Field K] [LinearOrder K] [IsStrictOrderedRing K] (fresh freshI : String → ℕ)
    (casadiPoints : ℕ → String → Except PyErr (List K))
    (csFunction : List (MXExpr K) → List (MXExpr K) → Except PyErr (CsFn K))
    (dae : DaeObj K) (t : List K) (order : ℕ) (method : String) (tdp_fun : Option (K → Mat K))
    (d : DaeObj K) (xdot res : MXExpr K) (tau : List K) (F : CsFn K) (rep : Bool) (s : Scheme K)

/-- The trajectory is a well-formed piecewise polynomial whose pieces are the collocation polynomials. -/
theorem piecewisePolyX_pieces
    (pre : SchemePre freshI casadiPoints csFunction dae t order method tdp_fun d xdot res tau F)
    (hs : Scheme.new fresh freshI casadiPoints csFunction dae t order method tdp_fun rep = .ok s)
    (hd : tau.Nodup) (h0 : 0 ∉ tau) (hasc : Ascending t) (hf : fresh "x" ≠ fresh "K")
    (x Kv : Mat K) (hx : x.rows = d.nx ∧ x.cols = s.N + 1) (hK : Kv.rows = d.nx ∧ Kv.cols = s.N * s.M) :
    ∃ pp, s.piecewisePolyX fresh x Kv = .ok pp ∧ pp.intervals = t ∧ pp.WF (0 :: tau) d.nx ∧
      ∀ env, (∀ i n, s.x.val env i n = x.e i n) → (∀ i c, s.Kd.val env i c = Kv.e i c) →
        ∀ n < s.N, ∀ i P, IsCollocationPoly s env i n P → IsPiece (0 :: tau) pp n i P := by
  have b := pre.built hs
  have hlen := pre.len
  have htwo := pre.two
  have hsx : s.x.rows = d.nx ∧ s.x.cols = s.N + 1 := by rw [b.x, b.N_eq]; exact ⟨pre.wf.nx.symm, rfl⟩
  have hsK : s.Kd.rows = d.nx ∧ s.Kd.cols = s.N * s.M := by rw [b.Kd, b.N_eq, b.M_eq]; exact ⟨pre.wf.nx.symm, rfl⟩
  let env0 : Env K := fun id => if id = fresh "x" then x.e else if id = fresh "K" then Kv.e else fun _ _ => 0
  have heval : s.evalX fresh x Kv = .ok (s.X.at' env0) :=
    if_pos ⟨hx.1.trans hsx.1.symm, hx.2.trans hsx.2.symm, hK.1.trans hsK.1.symm, hK.2.trans hsK.2.symm⟩
  let V : ℕ → Mat K := fun n => Mat.hcat d.nx [x.colSlice n 1, (s.X.at' env0).colSlice (n * s.M) s.M]
  have hXr : (s.X.at' env0).rows = d.nx := by show s.X.rows = _; rw [b.X_shape.1, pre.wf.nx]
  have hmap : (List.range s.N).mapM (fun n => hstack [x.colSlice n 1, (s.X.at' env0).colSlice (n * s.M) s.M])
      = .ok ((List.range s.N).map V) := by
    apply mapM_all_ok
    intro n _
    refine hstack_ok (by simp) ?_
    intro A hA
    simp only [List.mem_cons, List.not_mem_nil, or_false] at hA
    rcases hA with rfl | rfl
    · exact hx.1
    · exact hXr
  obtain ⟨bas, hbas⟩ : ∃ bas, polynomialBasis (0 :: tau) = .ok bas := ⟨_, polynomialBasis_ok (by simp)⟩
  refine ⟨⟨t, (List.range s.N).map V, bas⟩, ?_, rfl, ?_, ?_⟩
  · unfold Scheme.piecewisePolyX
    rw [heval]
    simp only [bind, Except.bind, hmap, b.butcher_c, hbas, b.t_eq]
    unfold PiecewisePoly.new
    rw [if_neg (by omega), if_neg (by simp [b.N_eq])]
  · refine ⟨by simp, List.nodup_cons.mpr ⟨h0, hd⟩, hbas, hasc, htwo, ?_, ?_, ?_⟩
    · simp [b.N_eq]; omega
    · intro c hc
      obtain ⟨n, _, rfl⟩ := List.mem_map.mp hc
      exact hcat_rows _ _
    · intro c hc
      obtain ⟨n, _, rfl⟩ := List.mem_map.mp hc
      show (Mat.hcat d.nx _).cols = _
      rw [hcat_cols]
      simp [off, Mat.colSlice, b.M_eq, hlen, Nat.add_comm]
  · intro env hex heK n hn i P hP
    have hX0 : ∀ j < s.M, (s.X.at' env0).e i (n * s.M + j) = s.X.val env i (n * s.M + j) := by
      intro j hj
      rw [b.N_eq] at hn
      rw [b.M_eq] at hj ⊢
      show s.X.val env0 i (n * order + j) = _
      rw [b.X env0 i n j hn hj, b.X env i n j hn hj]
      have e1 : env0 (fresh "x") i n = env (fresh "x") i n := by
        have := hex i n
        rw [b.x] at this
        rw [show env (fresh "x") i n = x.e i n from this]
        simp [env0]
      have e2 : ∀ c, env0 (fresh "K") i c = env (fresh "K") i c := by
        intro c
        have := heK i c
        rw [b.Kd] at this
        rw [show env (fresh "K") i c = Kv.e i c from this]
        simp [env0, hf.symm]
      rw [e1]
      congr 2
      exact Finset.sum_congr rfl fun k _ => by rw [e2]
    have h24 := (C24_state_integration fresh freshI casadiPoints csFunction dae t order method tdp_fun d xdot
      res tau F rep s pre hs hd env i n hn).2 P hP
    have htc := (C26_points_and_inputs fresh freshI casadiPoints csFunction dae t order method tdp_fun
      d xdot res tau F rep s pre hs).2.1.2
    refine ⟨V n, by simp [hn], ?_, ?_⟩
    · have := hP.degree
      rw [b.M_eq, ← hlen] at this
      rw [List.length_cons]
      refine lt_of_le_of_lt this ?_
      exact_mod_cast Nat.lt_succ_self _
    · intro j hj
      show P.eval (nd t n + (nd t (n + 1) - nd t n) * nd (0 :: tau) j) = (V n).e i j
      cases j with
      | zero =>
        have := hcat_e d.nx [x.colSlice n 1, (s.X.at' env0).colSlice (n * s.M) s.M] (n := 0) (by simp) (j := 0)
          (by simp [Mat.colSlice]) i
        rw [off_zero] at this
        rw [show (V n).e i 0 = _ from this]
        have h1 := hP.start
        rw [b.t_eq, hex] at h1
        rw [show nd (0 :: tau) 0 = 0 from rfl, mul_zero, add_zero, h1]
        rfl
      | succ j =>
        rw [List.length_cons, hlen] at hj
        have hj' : j < s.M := by rw [b.M_eq]; omega
        have := hcat_e d.nx [x.colSlice n 1, (s.X.at' env0).colSlice (n * s.M) s.M] (n := 1) (by simp) (j := j)
          (by simpa [Mat.colSlice] using hj') i
        rw [show off Mat.cols [x.colSlice n 1, (s.X.at' env0).colSlice (n * s.M) s.M] 1 + j = j + 1 by
          simp [off, Mat.colSlice, Nat.add_comm]] at this
        rw [show (V n).e i (j + 1) = _ from this]
        show _ = (s.X.at' env0).e i (n * s.M + j)
        rw [hX0 j hj', h24.1 j hj', htc n hn j hj']
        simp

/-- **C30** The trajectory `piecewisePolyX(x, K)` on the grid `t` with nodes other than 0.  For the values `x`, `K` of the
variables and the collocation polynomials `P` belonging to them:
* it takes the value of `P` on the interval (both modes, any list of times); in particular `x[:, n]` at `t[n]`, `X` at the
  collocation points inside the interval, and in 'left' mode at `t[n+1]` the extrapolated end state;
* its derivative takes the value of the derivative of `P`, in particular `K` at the collocation points;
* if the continuity equations hold, both modes agree at the bounds between intervals. -/
theorem C30_piecewisePolyX
    (pre : SchemePre freshI casadiPoints csFunction dae t order method tdp_fun d xdot res tau F)
    (hs : Scheme.new fresh freshI casadiPoints csFunction dae t order method tdp_fun rep = .ok s)
    (hd : tau.Nodup) (h0 : 0 ∉ tau) (hasc : Ascending t) (hf : fresh "x" ≠ fresh "K")
    (x Kv : Mat K) (hx : x.rows = d.nx ∧ x.cols = s.N + 1) (hK : Kv.rows = d.nx ∧ Kv.cols = s.N * s.M)
    (env : Env K) (hex : ∀ i n, s.x.val env i n = x.e i n) (heK : ∀ i c, s.Kd.val env i c = Kv.e i c) :
    ∃ pp dpp, s.piecewisePolyX fresh x Kv = .ok pp ∧ pp.derivative = .ok dpp ∧ pp.intervals = t ∧
      (∀ ts : List K, ts ≠ [] → ∃ V DV, pp.call ts = .ok V ∧ dpp.call ts = .ok DV ∧ V.rows = d.nx ∧ V.cols = ts.length ∧
        DV.rows = d.nx ∧ DV.cols = ts.length ∧
        ∀ k < ts.length, ∀ n, InRight t n (nd ts k) → ∀ i P, IsCollocationPoly s env i n P →
          V.e i k = P.eval (nd ts k) ∧ DV.e i k = (derivative P).eval (nd ts k)) ∧
      (∀ ts : List K, ts ≠ [] → ∃ V, pp.call ts "left" = .ok V ∧ V.rows = d.nx ∧ V.cols = ts.length ∧
        ∀ k < ts.length, ∀ n, InLeft t n (nd ts k) → ∀ i P, IsCollocationPoly s env i n P →
          V.e i k = P.eval (nd ts k)) ∧
      (∀ n < s.N, ∃ V, pp.call [nd t n] = .ok V ∧ ∀ i < d.nx, V.e i 0 = x.e i n) ∧
      (∀ n < s.N, ∀ j < s.M, InRight t n (nd s.tc (n * s.M + j)) → ∃ V DV, pp.call [nd s.tc (n * s.M + j)] = .ok V ∧
        dpp.call [nd s.tc (n * s.M + j)] = .ok DV ∧
        ∀ i < d.nx, V.e i 0 = s.X.val env i (n * s.M + j) ∧ DV.e i 0 = Kv.e i (n * s.M + j)) ∧
      (∀ n < s.N, ∃ V, pp.call [nd t (n + 1)] "left" = .ok V ∧
        ∀ i < d.nx, V.e i 0 = s.eqContinuity.val env i n + x.e i (n + 1)) ∧
      ((∀ n < s.N, ∀ i < d.nx, s.eqContinuity.val env i n = 0) → ∀ n, n + 1 < s.N → ∃ VL VR,
        pp.call [nd t (n + 1)] "left" = .ok VL ∧ pp.call [nd t (n + 1)] "right" = .ok VR ∧
        ∀ i < d.nx, VL.e i 0 = VR.e i 0) := by
  obtain ⟨pp, hpp, hint, w, hpieces⟩ := piecewisePolyX_pieces fresh freshI casadiPoints csFunction dae t order method tdp_fun
    d xdot res tau F rep s pre hs hd h0 hasc hf x Kv hx hK
  have hpiece := hpieces env hex heK
  obtain ⟨dpp, hdpp, -, -, -, hdcall⟩ := C14_derivative pp _ _ w
  have htwo := pre.two
  have b := pre.built hs
  have hN : s.N = t.length - 1 := b.N_eq
  have h24 := fun i n hn => C24_state_integration fresh freshI casadiPoints csFunction dae t order method tdp_fun d xdot
    res tau F rep s pre hs hd env i n hn
  have hne : ∀ n < s.N, nd t n ≠ nd t (n + 1) := fun n hn => (hasc n (by omega)).ne
  have hright : ∀ n < s.N, InRight t n (nd t n) := by
    intro n hn
    exact ⟨by omega, Or.inr le_rfl, Or.inr (hasc n (by omega))⟩
  have hleft : ∀ n < s.N, InLeft t n (nd t (n + 1)) := by
    intro n hn
    exact ⟨by omega, Or.inr (hasc n (by omega)), Or.inr le_rfl⟩
  have hA : ∀ ts : List K, ts ≠ [] → ∃ V DV, pp.call ts = .ok V ∧ dpp.call ts = .ok DV ∧ V.rows = d.nx ∧ V.cols = ts.length ∧
        DV.rows = d.nx ∧ DV.cols = ts.length ∧
        ∀ k < ts.length, ∀ n, InRight t n (nd ts k) → ∀ i P, IsCollocationPoly s env i n P →
          V.e i k = P.eval (nd ts k) ∧ DV.e i k = (derivative P).eval (nd ts k) := by
    intro ts hts
    obtain ⟨V, hV, hr, hc, hv⟩ := call_ok w "right" .right rfl ts hts
    obtain ⟨⟨DV, hDV, hDr, hDc, hDv⟩, -⟩ := hdcall ts hts
    rw [hint] at hv hDv
    refine ⟨V, DV, hV, hDV, hr, hc, hDr, hDc, ?_⟩
    intro k hk n hn i P hP
    have hn' : n < s.N := by have := hn.1; omega
    exact ⟨hv k hk n hn i P (hpiece n hn' i P hP), hDv k hk n hn i P (hpiece n hn' i P hP)⟩
  have hB : ∀ ts : List K, ts ≠ [] → ∃ V, pp.call ts "left" = .ok V ∧ V.rows = d.nx ∧ V.cols = ts.length ∧
        ∀ k < ts.length, ∀ n, InLeft t n (nd ts k) → ∀ i P, IsCollocationPoly s env i n P →
          V.e i k = P.eval (nd ts k) := by
    intro ts hts
    obtain ⟨V, hV, hr, hc, hv⟩ := call_ok w "left" .left rfl ts hts
    rw [hint] at hv
    refine ⟨V, hV, hr, hc, ?_⟩
    intro k hk n hn i P hP
    exact hv k hk n hn i P (hpiece n (by have := hn.1; omega) i P hP)
  have hC : ∀ n < s.N, ∃ V, pp.call [nd t n] = .ok V ∧ ∀ i < d.nx, V.e i 0 = x.e i n := by
    intro n hn
    obtain ⟨V, _, hV, -, -, -, -, -, hv⟩ := hA [nd t n] (by simp)
    refine ⟨V, hV, fun i _ => ?_⟩
    obtain ⟨P, hP, -⟩ := (h24 i n hn).1 (hne n hn)
    rw [(hv 0 (by simp) n (hright n hn) i P hP).1]
    have := hP.start
    rw [b.t_eq, hex] at this
    exact this
  have hD : ∀ n < s.N, ∃ V, pp.call [nd t (n + 1)] "left" = .ok V ∧
        ∀ i < d.nx, V.e i 0 = s.eqContinuity.val env i n + x.e i (n + 1) := by
    intro n hn
    obtain ⟨V, hV, -, -, hv⟩ := hB [nd t (n + 1)] (by simp)
    refine ⟨V, hV, fun i _ => ?_⟩
    obtain ⟨P, hP, -⟩ := (h24 i n hn).1 (hne n hn)
    rw [hv 0 (by simp) n (hleft n hn) i P hP, ((h24 i n hn).2 P hP).2, hex]
    simp
  refine ⟨pp, dpp, hpp, hdpp, hint, hA, hB, hC, ?_, hD, ?_⟩
  · intro n hn j hj hin
    obtain ⟨V, DV, hV, hDV, -, -, -, -, hv⟩ := hA [nd s.tc (n * s.M + j)] (by simp)
    refine ⟨V, DV, hV, hDV, fun i _ => ?_⟩
    obtain ⟨P, hP, -⟩ := (h24 i n hn).1 (hne n hn)
    obtain ⟨h1, h2⟩ := hv 0 (by simp) n hin i P hP
    rw [h1, h2, ((h24 i n hn).2 P hP).1 j hj, ← heK]
    exact ⟨rfl, hP.deriv j hj⟩
  · intro hcont n hn
    obtain ⟨VL, hVL, hl⟩ := hD n (by omega)
    obtain ⟨VR, hVR, hr⟩ := hC (n + 1) hn
    refine ⟨VL, VR, hVL, hVR, fun i hi => ?_⟩
    rw [hl i hi, hr i hi, hcont n (by omega) i hi, zero_add]

end

/-! ## C31 -/

/-- What is assumed about the root finder: a returned value is a root, of the size of the initial point. -/
def IsRootfinder {K : Type} [Zero K] (rootfinder : (List K → List K) → List K → Except PyErr (List K)) : Prop :=
  ∀ f w0 sol, rootfinder f w0 = .ok sol → sol.length = w0.length ∧ ∀ v ∈ f sol, v = 0

/-- The scheme's symbols have different identities. -/
structure DistinctSyms (fresh : String → ℕ) : Prop where
  xK : fresh "x" ≠ fresh "K"
  xZ : fresh "x" ≠ fresh "Z"
  xu : fresh "x" ≠ fresh "u"
  xP : fresh "x" ≠ fresh "P"
  KZ : fresh "K" ≠ fresh "Z"
  Ku : fresh "K" ≠ fresh "u"
  KP : fresh "K" ≠ fresh "P"
  Zu : fresh "Z" ≠ fresh "u"
  ZP : fresh "Z" ≠ fresh "P"
  uP : fresh "u" ≠ fresh "P"

/-- The assignment `env'` gives the model's symbols the values of the integrator's outputs at point `c`. -/
structure AtOutput {K : Type} [Field K] (out : IntegratorOut K) (d : DaeObj K) (xdot : MXExpr K)
    (tdp_fun : Option (K → Mat K)) (M : ℕ) (u p : Mat K) (env' : Env K) (c : ℕ) : Prop where
  xdot : ∀ i < d.x.rows, xdot.val env' i 0 = out.Kd.e i c
  x : ∀ i < d.x.rows, d.x.val env' i 0 = out.X.e i c
  z : ∀ i < d.z.rows, d.z.val env' i 0 = out.Z.e i c
  u : ∀ i < d.u.rows, d.u.val env' i 0 = u.e i (c / M)
  p : ∀ i < d.p.rows, d.p.val env' i 0 = p.e i 0
  t : d.t.val env' 0 0 = nd out.tc c
  tdp : ∀ f, tdp_fun = some f → ∀ i < d.tdp.rows, ∀ j < d.tdp.cols, d.tdp.val env' i j = (f (nd out.tc c)).e i j

section
variable {K : Type} [Field K] [DecidableEq K] [CharZero K] (fresh freshI : String → ℕ)
    (casadiPoints : ℕ → String → Except PyErr (List K))
    (csFunction : List (MXExpr K) → List (MXExpr K) → Except PyErr (CsFn K))
    (dae : DaeObj K) (t : List K) (order : ℕ) (method : String) (tdp_fun : Option (K → Mat K))
    (d : DaeObj K) (xdot res : MXExpr K) (tau : List K) (F : CsFn K)

/-- What `CollocationIntegrator` constructs. -/
theorem integrator_new
    (pre : SchemePre freshI casadiPoints csFunction dae t order method tdp_fun d xdot res tau F) :
    ∃ s x1, Scheme.new fresh freshI casadiPoints csFunction dae t order method tdp_fun = .ok s ∧
      s.x.colSlice 0 1 = .ok x1 ∧ (∀ env i, x1.val env i 0 = s.x.val env i 0) ∧
      Integrator.new fresh freshI casadiPoints csFunction dae t order method tdp_fun =
        if dae.np ≠ 0 ∧ dae.nq ≠ 0 then .error .runtime else
        .ok { scheme := s, nx := dae.nx, nz := dae.nz, env := Integrator.envOf fresh s
              residual := fun w x0 u p =>
                (s.eq.vals (Integrator.envOf fresh s w u p)) ++
                  (List.range dae.nx).map fun i => x1.val (Integrator.envOf fresh s w u p) i 0 - x0.e i 0
              w0 := fun x0 z0 =>
                (⟨s.x.rows, s.x.cols, fun i _ => x0.e i 0⟩ : Mat K).vals ++
                  (⟨s.Kd.rows, s.Kd.cols, fun _ _ => 0⟩ : Mat K).vals ++
                  (⟨s.Z.rows, s.Z.cols, fun i _ => z0.e i 0⟩ : Mat K).vals } := by
  obtain ⟨s, hs, b⟩ := Scheme.new_built (fresh := fresh) false pre
  obtain ⟨var, hvar, hsq, -⟩ := C28_square_system fresh freshI casadiPoints csFunction dae t order method tdp_fun d xdot res tau F s
    pre hs
  have hnx : dae.nx = d.x.rows := by
    rw [← pre.wf.nx]; simp [DaeObj.nx, (makeImplicit_parts pre.impl).1]
  have hx1 := colSlice_ok s.x 0 1 (by rw [b.x]; show 0 + 1 ≤ t.length - 1 + 1; omega)
  refine ⟨s, _, hs, hx1, fun env i => by simp, ?_⟩
  unfold Integrator.new
  rw [hs]
  simp only [bind, Except.bind, hvar, hx1]
  rw [if_neg]
  · rfl
  · simp only [ne_eq, not_not]
    show ((var.map (·.2)).map MXExpr.numel).sum = s.eq.rows + s.x.rows
    rw [List.map_map, show s.x.rows = dae.nx by rw [b.x, hnx]; rfl, ← hsq]
    rfl

/-- **C31** (partial: models with parameters and quadratures are excluded, see `C31_refuted`).  The integrator is
constructed; for every call in which the root finder succeeds, the outputs are consistent: initial condition, `xf`, `zf`,
`tc`; on every interval one polynomial connects `x`, `K`, `X` and the next `x`; the residuals of the model vanish at every
collocation point; `qf` and `Q` are the integrals of the quadrature polynomials. -/
theorem C31_integrator_outputs_partial (hcs : IsCsFunction csFunction)
    (pre : SchemePre freshI casadiPoints csFunction dae t order method tdp_fun d xdot res tau F)
    (hd : tau.Nodup) (ht : ∀ n, n + 1 < t.length → nd t n ≠ nd t (n + 1)) (hfr : DistinctSyms fresh)
    (hpq : dae.np = 0 ∨ dae.nq = 0)
    (rootfinder : (List K → List K) → List K → Except PyErr (List K)) (hrf : IsRootfinder rootfinder) :
    ∃ g, Integrator.new fresh freshI casadiPoints csFunction dae t order method tdp_fun = .ok g ∧
      (∀ w x0 z0 u p, (g.residual w x0 u p).length = (g.w0 x0 z0).length) ∧
      (∀ x0 z0 u p, (∃ e, g.call rootfinder x0 z0 u p = .error e) ↔
        ∃ e, rootfinder (fun w => g.residual w x0 u p) (g.w0 x0 z0) = .error e) ∧
      ∀ x0 z0 u p out, g.call rootfinder x0 z0 u p = .ok out →
        ((out.x.rows = dae.nx ∧ out.x.cols = t.length ∧ out.Kd.rows = dae.nx ∧ out.Kd.cols = (t.length - 1) * order ∧
          out.X.rows = dae.nx ∧ out.X.cols = (t.length - 1) * order ∧ out.Z.rows = dae.nz ∧
          out.Z.cols = (t.length - 1) * order ∧ out.Q.rows = dae.nq ∧ out.Q.cols = (t.length - 1) * order)) ∧
        (∀ i < dae.nx, out.x.e i 0 = x0.e i 0) ∧
        (out.xf.rows = dae.nx ∧ out.xf.cols = t.length - 1 ∧
          ∀ i < dae.nx, ∀ n < t.length - 1, out.xf.e i n = out.x.e i (n + 1)) ∧
        out.zf = List.replicate dae.nz none ∧
        (out.tc.length = (t.length - 1) * order ∧ ∀ n < t.length - 1, ∀ j < order,
          nd out.tc (n * order + j) = pointTime t tau n j) ∧
        (∀ n < t.length - 1, ∀ i < dae.nx, ∃ P : K[X], P.degree ≤ order ∧ P.eval (nd t n) = out.x.e i n ∧
          P.eval (nd t (n + 1)) = out.x.e i (n + 1) ∧ ∀ j < order,
            (derivative P).eval (pointTime t tau n j) = out.Kd.e i (n * order + j) ∧
            P.eval (pointTime t tau n j) = out.X.e i (n * order + j)) ∧
        (∀ c < (t.length - 1) * order, (∃ env', AtOutput out d xdot tdp_fun order u p env' c) ∧
          ∀ env', AtOutput out d xdot tdp_fun order u p env' c → ResidualZero res env') ∧
        (out.qf.rows = dae.nq ∧ out.qf.cols = 1 ∧ ∀ qp Qp : ℕ → ℕ → K[X], (∀ n i, (qp n i).degree < order) →
          (∀ n i, derivative (Qp n i) = qp n i) →
          (∀ n < t.length - 1, ∀ j < order, ∀ env', AtOutput out d xdot tdp_fun order u p env' (n * order + j) →
            ∀ i < dae.nq, d.quad.val env' i 0 = (qp n i).eval (pointTime t tau n j)) →
          ∀ i < dae.nq,
            (out.qf.e i 0 = ∑ m ∈ Finset.range (t.length - 1), ((Qp m i).eval (nd t (m + 1)) - (Qp m i).eval (nd t m))) ∧
            ∀ n < t.length - 1, ∀ j < order, out.Q.e i (n * order + j) =
              ∑ m ∈ Finset.range n, ((Qp m i).eval (nd t (m + 1)) - (Qp m i).eval (nd t m)) +
                ((Qp n i).eval (pointTime t tau n j) - (Qp n i).eval (nd t n))) := by
  obtain ⟨s, x1, hs, -, hx1v, hnew⟩ := integrator_new fresh freshI casadiPoints csFunction dae t order method tdp_fun d xdot res tau F
    pre
  rw [if_neg (by omega)] at hnew
  have b := pre.built hs
  obtain ⟨px, pz, -, pp, -, pq, -⟩ := makeImplicit_parts pre.impl
  have hnx : dae.nx = d.x.rows := by rw [← pre.wf.nx]; simp [DaeObj.nx, px]
  have hnz : dae.nz = d.z.rows := by rw [← pre.wf.nz]; simp [DaeObj.nz, pz]
  have hnq : dae.nq = d.quad.rows := by simp [DaeObj.nq, ← pq, MXExpr.numel, pre.quad]
  have hnq' : dae.nq = d.nq := by simp [DaeObj.nq, pq]
  have htwo := pre.two
  obtain ⟨⟨hN, hM, hst, -⟩, ⟨htl, htc⟩, -, -⟩ := C26_points_and_inputs fresh freshI casadiPoints csFunction dae t order method tdp_fun
    d xdot res tau F false s pre hs
  rw [hN, hM] at htl htc
  refine ⟨_, hnew, ?_, ?_, ?_⟩
  · intro w x0 z0 u p
    obtain ⟨var, hvar, hsq, hsz⟩ := C28_square_system fresh freshI casadiPoints csFunction dae t order method tdp_fun d xdot res tau F s
      pre hs
    have : var = [("x", s.x), ("K", s.Kd), ("Z", s.Z)] := (Except.ok.inj hvar).symm
    rw [this] at hsq
    simp only [List.map_cons, List.map_nil, List.sum_cons, List.sum_nil] at hsq
    simp only [List.length_append, vals_length, List.length_map, List.length_range, Mat.vals]
    rw [MXExpr.numel, show s.eq.cols = 1 from rfl]
    omega
  · intro x0 z0 u p
    unfold Integrator.call
    simp only [bind, Except.bind]
    constructor
    · rintro ⟨e, he⟩
      split at he
      · rename_i e' h'; exact ⟨e', h'⟩
      · cases he
    · rintro ⟨e, he⟩
      rw [he]
      exact ⟨e, rfl⟩
  · intro x0 z0 u p out hout
    unfold Integrator.call at hout
    simp only [bind, Except.bind] at hout
    split at hout
    · cases hout
    rename_i sol hsol
    have hroot := (hrf _ _ _ hsol).2
    have hout := Except.ok.inj hout
    set env := Integrator.envOf fresh s sol u p with henv
    have hu : ∀ i n, s.u.val env i n = u.e i n := by
      intro i n
      rw [b.u]
      show Integrator.envOf fresh s sol u p (fresh "u") i n = _
      unfold Integrator.envOf
      rw [if_neg hfr.xu.symm, if_neg hfr.Ku.symm, if_neg hfr.Zu.symm, if_pos rfl]
    have hp : ∀ i n, s.p.val env i n = p.e i n := by
      intro i n
      rw [b.p]
      show Integrator.envOf fresh s sol u p (fresh "P") i n = _
      unfold Integrator.envOf
      rw [if_neg hfr.xP.symm, if_neg hfr.KP.symm, if_neg hfr.ZP.symm, if_neg hfr.uP.symm, if_pos rfl]
    have heq : ∀ v ∈ s.eq.vals env, v = 0 := fun v hv => hroot v (List.mem_append_left _ hv)
    have hinit : ∀ i < dae.nx, s.x.val env i 0 = x0.e i 0 := by
      intro i hi
      have := hroot (x1.val env i 0 - x0.e i 0)
        (List.mem_append_right _ (List.mem_map.mpr ⟨i, List.mem_range.mpr hi, rfl⟩))
      rw [hx1v] at this
      exact sub_eq_zero.mp this
    have hne : ∀ n < s.N, nd t n ≠ nd t (n + 1) := fun n hn => ht n (by rw [hN] at hn; omega)
    obtain ⟨h25, hex, -⟩ := C25_equations fresh freshI casadiPoints csFunction dae t order method tdp_fun d xdot res tau F false s hcs
      pre hs hd hne env
    obtain ⟨ha, hb, -⟩ := h25.mp heq
    rw [hN, hM] at ha hex
    have h24 := fun i n hn => C24_state_integration fresh freshI casadiPoints csFunction dae t order method tdp_fun d xdot
      res tau F false s pre hs hd env i n hn
    have hat : ∀ env' c, AtOutput out d xdot tdp_fun order u p env' c ↔ AtPoint s d xdot tdp_fun false env env' c := by
      intro env' c
      rw [← hout]
      constructor
      · rintro ⟨a1, a2, a3, a4, a5, a6, a7⟩
        exact ⟨a1, a2, a3, fun i hi => by rw [a4 i hi, hM, hu], fun i hi => by rw [a5 i hi, hp]; rfl, a6, a7⟩
      · rintro ⟨a1, a2, a3, a4, a5, a6, a7⟩
        refine ⟨a1, a2, a3, fun i hi => ?_, fun i hi => ?_, a6, a7⟩
        · rw [a4 i hi, hM, hu]
        · rw [a5 i hi, hp]; rfl
    refine ⟨?_, ?_, ?_, ?_, ?_, ?_, ?_, ?_⟩
    · rw [← hout]
      refine ⟨?_, ?_, ?_, ?_, ?_, ?_, ?_, ?_, ?_, ?_⟩
      · show s.x.rows = _; rw [b.x, hnx]; rfl
      · show s.x.cols = _; rw [b.x]; show t.length - 1 + 1 = _; omega
      · show s.Kd.rows = _; rw [b.Kd, hnx]; rfl
      · show s.Kd.cols = _; rw [b.Kd]; rfl
      · show s.X.rows = _; rw [b.X_shape.1, hnx]
      · exact b.X_shape.2
      · show s.Z.rows = _; rw [b.Z, hnz]; rfl
      · show s.Z.cols = _; rw [b.Z]; rfl
      · show s.Q.rows = _; rw [b.Q_shape.1, hnq]
      · exact b.Q_shape.2
    · rw [← hout]; exact hinit
    · rw [← hout]
      refine ⟨?_, ?_, fun i _ n _ => rfl⟩
      · show s.x.rows = _; rw [b.x, hnx]; rfl
      · show s.x.cols - 1 = _; rw [b.x]; rfl
    · rw [← hout]
    · rw [← hout]
      exact ⟨htl, htc⟩
    · intro n hn i hi
      have hn' : n < s.N := by rw [hN]; exact hn
      obtain ⟨P, hP, -⟩ := (h24 i n hn').1 (hne n hn')
      have h1 := (h24 i n hn').2 P hP
      obtain ⟨p1, p2, p3⟩ := hP
      rw [hM] at p1 p3 h1
      rw [hst] at p2
      rw [← hout]
      refine ⟨P, p1, p2, hb n hn' i (by rw [pre.wf.nx, ← hnx]; exact hi) P ⟨by rw [hM]; exact p1, by rw [hst]; exact p2,
        by rw [hM]; exact p3⟩, ?_⟩
      intro j hj
      have e1 := p3 j hj
      have e2 := h1.1 j hj
      rw [htc n hn j hj] at e1 e2
      exact ⟨e1, e2.symm⟩
    · intro c hc
      refine ⟨?_, fun env' h => ha c hc env' ((hat env' c).mp h)⟩
      obtain ⟨env', h⟩ := hex c hc
      exact ⟨env', (hat env' c).mpr h⟩
    · rw [← hout]
      refine ⟨by show s.q.rows = _; rw [b.q_shape.1, hnq], rfl, ?_⟩
      rw [hout]
      intro qp Qp hq hQ hval i hi
      obtain ⟨-, hqv, hq0, hstep⟩ := C27_quadrature fresh freshI casadiPoints csFunction dae t order method tdp_fun d xdot
        res tau F false s hcs pre hs hd env
      rw [hN, hM] at hqv hstep
      have key : ∀ n < t.length - 1, ∀ j < order,
          (qp n i).eval (nd s.tc (n * order + j)) = s.quad.val env i (n * order + j) := by
        intro n hn j hj
        obtain ⟨env', h⟩ := hex (n * order + j) (block_lt hn hj)
        rw [hqv _ (block_lt hn hj) env' h i (by rw [← hnq']; exact hi), hval n hn j hj env' ((hat env' _).mpr h) i hi,
          htc n hn j hj]
        rfl
      have hsum : ∀ n ≤ t.length - 1, s.q.val env i n =
          ∑ m ∈ Finset.range n, ((Qp m i).eval (nd t (m + 1)) - (Qp m i).eval (nd t m)) := by
        intro n hn
        induction n with
        | zero => rw [hq0]; rfl
        | succ n ih =>
          rw [((hstep n (by omega) i).2 (qp n i) (Qp n i) (hq n i) (key n (by omega)) (hQ n i)).1, ih (by omega),
            Finset.sum_range_succ]
      constructor
      · rw [← hout]
        show s.q.val env i (s.q.cols - 1) = _
        rw [b.q_shape.2, Nat.add_sub_cancel, hsum _ le_rfl]
      · intro n hn j hj
        rw [← hout]
        show s.Q.val env i (n * order + j) = _
        rw [((hstep n hn i).2 (qp n i) (Qp n i) (hq n i) (key n hn) (hQ n i)).2 j hj, hsum n hn.le, htc n hn j hj]
        rfl

/-- **C31 is false** for models with parameters and quadratures: the constructor raises. -/
theorem C31_refuted
    (pre : SchemePre freshI casadiPoints csFunction dae t order method tdp_fun d xdot res tau F)
    (hp : dae.np ≠ 0) (hq : dae.nq ≠ 0) :
    Integrator.new fresh freshI casadiPoints csFunction dae t order method tdp_fun = .error .runtime := by
  obtain ⟨s, x1, -, -, -, hnew⟩ := integrator_new fresh freshI casadiPoints csFunction dae t order method tdp_fun d xdot res tau F
    pre
  rw [hnew, if_pos ⟨hp, hq⟩]

end

/-- The model of the example has a parameter and a quadrature: the integrator cannot be constructed. -/
example (fresh freshI : String → ℕ) (hI : 6 ≤ freshI "xdot") :
    Integrator.new fresh freshI (fun _ _ => .ok [1 / 3, 1]) idealCsFunction exO [0, 1, 3] 2 "radau" (some schemeTdp)
      = .error .runtime := by
  obtain ⟨F, -, pre⟩ := scheme_instance (fun _ => 0) freshI hI
  exact C31_refuted _ _ _ _ _ _ _ _ _ _ _ _ _ _ pre Nat.one_ne_zero Nat.one_ne_zero

end CE
