import Verif.Num.PropsSens2

/-!
# Property C132, continued: the outputs of the integrator are differentiable
-/

open Filter Topology

namespace CE

/-- The elements of the first `m` rows and `cols` columns of the matrix `a` are differentiable at 0. -/
def DiffMat (m cols : ℕ) (a : ℝ → Mat ℝ) : Prop := ∀ i < m, ∀ j < cols, DifferentiableAt ℝ (fun ε => (a ε).e i j) 0

section

variable (fresh fresh' freshI freshI' : String → ℕ) (casadiPoints : ℕ → String → Except PyErr (List ℝ))
    (csFunction : List (MXExpr ℝ) → List (MXExpr ℝ) → Except PyErr (CsFn ℝ))
    (dae dae' : DaeObj ℝ) (t : List ℝ) (order : ℕ) (method : String) (tdp_fun : Option (ℝ → Mat ℝ))
    (d d' : DaeObj ℝ) (xdot res xdot' res' : MXExpr ℝ) (tau : List ℝ) (F F' : CsFn ℝ)

/-- **C132** (integrator, existence) For a regular model with small steps whose tangent model has linear equations, the outputs of
`CollocationIntegrator` are differentiable in initial state, inputs and parameters, for every rootfinder;
nothing is assumed about an integrator of the tangent model. -/
theorem C132_integrator_exists (hcs : IsCsFunction csFunction)
    (pre : SchemePre freshI casadiPoints csFunction dae t order method tdp_fun d xdot res tau F)
    (pre' : SchemePre freshI' casadiPoints csFunction dae' t order method tdp_fun d' xdot' res' tau F')
    (hfr : DistinctSyms fresh) (hfr' : DistinctSyms fresh') (hpq : dae.np = 0 ∨ dae.nq = 0)
    (hT : LinearTangent d d' xdot xdot' res res' tdp_fun)
    (L Lz G Gz θ : ℝ) (reg : RegularDae d xdot res L Lz G Gz)
    (T : ButcherTableau ℝ) (hTab : butcherTableuForCollocationPoints tau = .ok T) (α β H : ℝ)
    (hα : ∀ j < order, ∑ k ∈ Finset.range order, |T.A.e [j, k]| ≤ α) (hβ : ∑ k ∈ Finset.range order, |T.b.e [k]| ≤ β)
    (ht : ∀ n < t.length - 1, nd t n ≤ nd t (n + 1) ∧ nd t (n + 1) - nd t n ≤ H) (hθ : θ < 1) (hstep : L * (H * α) ≤ θ)
    (rootfinder : (List ℝ → List ℝ) → List ℝ → Except PyErr (List ℝ)) (hrf : IsRootfinder rootfinder) :
    ∃ g, Integrator.new fresh freshI casadiPoints csFunction dae t order method tdp_fun = .ok g ∧
      ∀ (x0 z0 u p : ℝ → Mat ℝ) (out : ℝ → IntegratorOut ℝ),
      DiffMat d.nx 1 x0 → DiffMat d.nu (t.length - 1) u → DiffMat d.np 1 p →
      (∀ᶠ ε in 𝓝 0, g.call rootfinder (x0 ε) (z0 ε) (u ε) (p ε) = .ok (out ε)) →
      DiffMat d.nx t.length (fun ε => (out ε).x) ∧ DiffMat d.nx (t.length - 1) (fun ε => (out ε).xf) ∧
      DiffMat d.nx ((t.length - 1) * order) (fun ε => (out ε).X) ∧ DiffMat d.nx ((t.length - 1) * order) (fun ε => (out ε).Kd) ∧
      DiffMat d.nz ((t.length - 1) * order) (fun ε => (out ε).Z) ∧ DiffMat d.nq ((t.length - 1) * order) (fun ε => (out ε).Q) ∧
      DiffMat d.nq 1 (fun ε => (out ε).qf) := by
  obtain ⟨s, x1, hs, -, hx1v, hnew⟩ := integrator_new fresh freshI casadiPoints csFunction dae t order method tdp_fun d xdot res tau F pre
  obtain ⟨s', -, hs', -, -, -⟩ := integrator_new fresh' freshI' casadiPoints csFunction dae' t order method tdp_fun d' xdot' res' tau F' pre'
  obtain ⟨px, -, -, pp, -, pq, -⟩ := makeImplicit_parts pre.impl
  have hnx : dae.nx = d.nx := by simp [DaeObj.nx, px]
  rw [if_neg (by omega)] at hnew
  have b := pre.built hs
  obtain ⟨g, hg, hgs, hge, hgr⟩ : ∃ g, Integrator.new fresh freshI casadiPoints csFunction dae t order method tdp_fun = .ok g ∧
      g.scheme = s ∧ g.env = Integrator.envOf fresh s ∧ ∀ w x0 u p, g.residual w x0 u p = s.eq.vals (Integrator.envOf fresh s w u p) ++
      (List.range dae.nx).map fun i => x1.val (Integrator.envOf fresh s w u p) i 0 - x0.e i 0 :=
    ⟨_, hnew, rfl, rfl, fun _ _ _ _ => rfl⟩
  refine ⟨g, hg, ?_⟩
  intro x0 z0 u p out hx0 hu hp hout
  have spec : ∀ ε, ∃ env : Env ℝ, _ → _ := fun ε => by
    by_cases hε : g.call rootfinder (x0 ε) (z0 ε) (u ε) (p ε) = .ok (out ε)
    · obtain ⟨env, henv⟩ := integrator_call_spec t order tdp_fun d xdot res tau F b hfr hnx x1 hx1v g hgs hge hgr rootfinder hrf _ _ _ _ _ hε
      exact ⟨env, fun _ => henv⟩
    · exact ⟨fun _ _ _ => 0, fun h => absurd h hε⟩
  choose env henv using spec
  have hall := hout.mono fun ε hε => henv ε hε
  obtain ⟨env', -, ⟨hx, hk, hz, -, -⟩, kX, kq, kQ⟩ := C132_exists fresh fresh' freshI freshI' casadiPoints csFunction dae dae' t order method
    tdp_fun d d' xdot res xdot' res' tau F F' false s s' hcs pre pre' hs hs' hfr hfr' hT L Lz G Gz θ reg T hTab α β H
    (by rw [b.M_eq]; exact hα) (by rw [b.M_eq]; exact hβ) (by rw [b.N_eq]; exact ht) hθ hstep env (hall.mono fun ε hε => hε.1)
    (fun i hi => (hx0 i hi 0 Nat.one_pos).congr_of_eventuallyEq (by filter_upwards [hall] with ε hε; exact hε.2.1 i hi))
    (fun n hn i hi => (hu i hi n (by rw [← b.N_eq]; exact hn)).congr_of_eventuallyEq (by
      filter_upwards [hall] with ε hε; rw [hε.2.2.1]))
    (fun c hc i hi => (hp i hi c hc).congr_of_eventuallyEq (by filter_upwards [hall] with ε hε; rw [hε.2.2.2.1]))
  have htwo := pre.two
  rw [b.N_eq] at hx hk hz kX kq kQ
  rw [b.M_eq] at hk hz kX kQ
  refine ⟨fun i hi n hn => ?_, fun i hi n hn => ?_, fun i hi c hc => ?_, fun i hi c hc => ?_, fun i hi c hc => ?_, fun i hi c hc => ?_,
    fun i hi c _ => ?_⟩
  · refine (hx n (by omega) i hi).2.differentiableAt.congr_of_eventuallyEq ?_
    filter_upwards [hall] with ε hε
    rw [hε.2.2.2.2.1]
  · refine (hx (n + 1) (by omega) i hi).2.differentiableAt.congr_of_eventuallyEq ?_
    filter_upwards [hall] with ε hε
    rw [hε.2.2.2.2.2.1]
  · refine (kX c hc i hi).2.differentiableAt.congr_of_eventuallyEq ?_
    filter_upwards [hall] with ε hε
    rw [hε.2.2.2.2.2.2.1]
  · refine (hk c hc i hi).2.differentiableAt.congr_of_eventuallyEq ?_
    filter_upwards [hall] with ε hε
    rw [hε.2.2.2.2.2.2.2.1]
  · refine (hz c hc i hi).2.differentiableAt.congr_of_eventuallyEq ?_
    filter_upwards [hall] with ε hε
    rw [hε.2.2.2.2.2.2.2.2.1]
  · refine (kQ c hc i hi).2.differentiableAt.congr_of_eventuallyEq ?_
    filter_upwards [hall] with ε hε
    rw [hε.2.2.2.2.2.2.2.2.2.1]
  · refine (kq (t.length - 1) le_rfl i hi).2.differentiableAt.congr_of_eventuallyEq ?_
    filter_upwards [hall] with ε hε
    rw [hε.2.2.2.2.2.2.2.2.2.2]

end

/-- C132 (integrator, existence) for `x' = sin(x)`, the midpoint rule and any rootfinder: the final state is differentiable in the
initial state. -/
example (freshI : String → ℕ) (hI : 6 ≤ freshI "xdot") (a : ℝ)
    (rootfinder : (List ℝ → List ℝ) → List ℝ → Except PyErr (List ℝ)) (hrf : IsRootfinder rootfinder) : ∃ g,
      Integrator.new exFresh freshI (fun _ _ => .ok [1 / 2]) idealCsFunction (odeO 1 (rhs1 Real.sin)) [0, 1] 1 "legendre" none = .ok g ∧
      ∀ z0 u p (out : ℝ → IntegratorOut ℝ), (∀ ε, g.call rootfinder ⟨1, 1, fun _ _ => a + ε⟩ z0 u p = .ok (out ε)) →
      DifferentiableAt ℝ (fun ε => (out ε).xf.e 0 0) 0 := by
  obtain ⟨F, pre⟩ := ode_pre freshI hI 1 (rhs1 Real.sin) (fun e e' h _ i hi => by simp only [rhs1, h 0 (by omega)]) rfl [0, 1] [1 / 2]
    (by simp) (by simp)
  obtain ⟨F', pre'⟩ := ode_pre freshI hI 2 (rhs1T Real.sin Real.cos) (fun e e' h _ i hi => by
    simp only [rhs1T, h 0 (by omega), h 1 (by omega)]) rfl [0, 1] [1 / 2] (by simp) (by simp)
  obtain ⟨T, hT, hA0, hB0⟩ := half_tableau
  obtain ⟨g, hg, key⟩ := C132_integrator_exists exFresh exFresh freshI freshI _ _ _ _ _ _ _ _ _ _ _ _ _ _ _ F F' idealCsFunction_spec pre
    pre' (by constructor <;> decide) (by constructor <;> decide) (.inl rfl) (linearTangent1 _ _ Real.hasDerivAt_sin freshI) 1 0 1 0 (1 / 2)
    (sin_regular freshI) T hT (1 / 2) 1 1
    (fun j hj => by
      obtain rfl : j = 0 := by simp at hj; omega
      simp [hA0]) (by simp [hB0]) (fun n hn => by
        obtain rfl : n = 0 := by simp at hn; omega
        norm_num [nd]) (by norm_num) (by norm_num) rootfinder hrf
  refine ⟨g, hg, fun z0 u p out h => ?_⟩
  have hk := key (fun ε => ⟨1, 1, fun _ _ => a + ε⟩) (fun _ => z0) (fun _ => u) (fun _ => p) out
    (fun i hi j hj => differentiableAt_id.const_add a)
    (fun i hi => absurd hi (Nat.not_lt_zero _)) (fun i hi => absurd hi (Nat.not_lt_zero _)) (Eventually.of_forall h)
  exact hk.2.1 0 Nat.one_pos 0 (by simp)

end CE
