import Verif.Num.PropsScheme4
import Verif.Num.LemColumns
import Verif.Num.PropsInvariant
import Verif.Num.PropsExist

/-!
# Property C80: the point at which the integrator starts its root search
-/

open Polynomial

namespace CE

/-! ## Lemmas -/

section
variable {K : Type} [Field K]

theorem Mat.vals_length (A : Mat K) : A.vals.length = A.rows * A.cols := by simp [Mat.vals]

/-- `ofVec` reads back what `vals` wrote, wherever the elements are in the vector. -/
theorem Mat.ofVec_vals (A : Mat K) (l r : List K) {a : ℕ} (ha : a = l.length) {i j : ℕ} (hi : i < A.rows) (hj : j < A.cols) :
    (Mat.ofVec (l ++ A.vals ++ r) a A.rows A.cols).e i j = A.e i j := by
  have hlt : j * A.rows + i < A.rows * A.cols := by
    calc j * A.rows + i < j * A.rows + A.rows := by omega
      _ = A.rows * (j + 1) := by ring
      _ ≤ A.rows * A.cols := Nat.mul_le_mul_left _ hj
  subst ha
  unfold Mat.ofVec nd
  simp only [List.append_assoc, Nat.add_assoc]
  rw [List.getD_eq_getElem?_getD, List.getElem?_append_right (by omega), Nat.add_sub_cancel_left,
    List.getElem?_append_left (by rw [Mat.vals_length]; exact hlt)]
  unfold Mat.vals
  rw [List.getElem?_map, List.getElem?_range hlt, Option.map_some, Option.getD_some]
  rw [Nat.mul_comm, Nat.mul_add_mod, Nat.mod_eq_of_lt hi, Nat.mul_add_div (by omega), Nat.div_eq_of_lt hi, Nat.add_zero]

end

/-! ## Specification -/

/-- The model's symbols have the values of a system at rest: state derivative zero, state `x0`, algebraic state `z0`, the
input of interval `n`, the parameter `p`, at time `T`. -/
structure AtRest {K : Type} [Field K] (d : DaeObj K) (xdot : MXExpr K) (tdp_fun : Option (K → Mat K)) (x0 z0 u p : Mat K)
    (n : ℕ) (T : K) (env' : Env K) : Prop where
  xdot : ∀ i < d.x.rows, xdot.val env' i 0 = 0
  x : ∀ i < d.x.rows, d.x.val env' i 0 = x0.e i 0
  z : ∀ i < d.z.rows, d.z.val env' i 0 = z0.e i 0
  u : ∀ i < d.u.rows, d.u.val env' i 0 = u.e i n
  p : ∀ i < d.p.rows, d.p.val env' i 0 = p.e i 0
  t : d.t.val env' 0 0 = T
  tdp : ∀ f, tdp_fun = some f → ∀ i < d.tdp.rows, ∀ j < d.tdp.cols, d.tdp.val env' i j = (f T).e i j

section
variable {K : Type} [Field K] [DecidableEq K] [CharZero K] (fresh freshI : String → ℕ)
    (casadiPoints : ℕ → String → Except PyErr (List K))
    (csFunction : List (MXExpr K) → List (MXExpr K) → Except PyErr (CsFn K))
    (dae : DaeObj K) (t : List K) (order : ℕ) (method : String) (tdp_fun : Option (K → Mat K))
    (d : DaeObj K) (xdot res : MXExpr K) (tau : List K) (F : CsFn K)

/-- **C80** The point from which the root search of the integrator starts assigns `x0` to the state at every grid point, 0 to
the state derivative and `z0` to the algebraic state at every collocation point.  It solves the equations exactly when the
model, started at `x0`, `z0`, is at rest at all collocation points. -/
theorem C80_initial_point (hcs : IsCsFunction csFunction)
    (pre : SchemePre freshI casadiPoints csFunction dae t order method tdp_fun d xdot res tau F)
    (hfr : DistinctSyms fresh) (hpq : dae.np = 0 ∨ dae.nq = 0) :
    ∃ g, Integrator.new fresh freshI casadiPoints csFunction dae t order method tdp_fun = .ok g ∧
      (∀ x0 z0 u p, (∀ n < t.length, ∀ i < dae.nx, g.scheme.x.val (g.env (g.w0 x0 z0) u p) i n = x0.e i 0) ∧
        (∀ c < (t.length - 1) * order, (∀ i < dae.nx, g.scheme.Kd.val (g.env (g.w0 x0 z0) u p) i c = 0) ∧
          (∀ i < dae.nx, g.scheme.X.val (g.env (g.w0 x0 z0) u p) i c = x0.e i 0) ∧
          ∀ i < dae.nz, g.scheme.Z.val (g.env (g.w0 x0 z0) u p) i c = z0.e i 0)) ∧
      ∀ x0 z0 u p, (∀ v ∈ g.residual (g.w0 x0 z0) x0 u p, v = 0) ↔
        ∀ n < t.length - 1, ∀ j < order, ∀ env', AtRest d xdot tdp_fun x0 z0 u p n (pointTime t tau n j) env' →
          ResidualZero res env' := by
  obtain ⟨s, x1, hs, -, hx1v, hnew⟩ := integrator_new fresh freshI casadiPoints csFunction dae t order method tdp_fun d xdot res tau F
    pre
  rw [if_neg (by omega)] at hnew
  have b := pre.built hs
  obtain ⟨px, pz, -, pp, -, pq, -⟩ := makeImplicit_parts pre.impl
  have hnx : dae.nx = d.x.rows := by rw [← pre.wf.nx]; simp [DaeObj.nx, px]
  have hnz : dae.nz = d.z.rows := by rw [← pre.wf.nz]; simp [DaeObj.nz, pz]
  have htwo := pre.two
  have hxr : s.x.rows = d.x.rows ∧ s.x.cols = t.length - 1 + 1 := by rw [b.x]; exact ⟨rfl, rfl⟩
  have hKr : s.Kd.rows = d.x.rows ∧ s.Kd.cols = (t.length - 1) * order := by rw [b.Kd]; exact ⟨rfl, rfl⟩
  have hZr : s.Z.rows = d.z.rows ∧ s.Z.cols = (t.length - 1) * order := by rw [b.Z]; exact ⟨rfl, rfl⟩
  have key : ∀ x0 z0 u p, ∃ w0 : List K, w0 = (⟨s.x.rows, s.x.cols, fun i _ => x0.e i 0⟩ : Mat K).vals ++
                  (⟨s.Kd.rows, s.Kd.cols, fun _ _ => 0⟩ : Mat K).vals ++
                  (⟨s.Z.rows, s.Z.cols, fun i _ => z0.e i 0⟩ : Mat K).vals ∧
      (∀ i < d.x.rows, ∀ n < t.length, Integrator.envOf fresh s w0 u p (fresh "x") i n = (x0 : Mat K).e i 0) ∧
      (∀ i < d.x.rows, ∀ c < (t.length - 1) * order, Integrator.envOf fresh s w0 u p (fresh "K") i c = 0) ∧
      (∀ i < d.z.rows, ∀ c < (t.length - 1) * order, Integrator.envOf fresh s w0 u p (fresh "Z") i c = (z0 : Mat K).e i 0) ∧
      Integrator.envOf fresh s w0 u p (fresh "u") = u.e ∧ Integrator.envOf fresh s w0 u p (fresh "P") = p.e := by
    intro x0 z0 u p
    refine ⟨_, rfl, ?_, ?_, ?_, ?_, ?_⟩
    · intro i hi n hn
      unfold Integrator.envOf
      rw [if_pos rfl]
      have := Mat.ofVec_vals (⟨s.x.rows, s.x.cols, fun i _ => x0.e i 0⟩ : Mat K) []
        ((⟨s.Kd.rows, s.Kd.cols, fun _ _ => 0⟩ : Mat K).vals ++ (⟨s.Z.rows, s.Z.cols, fun i _ => z0.e i 0⟩ : Mat K).vals)
        (a := 0) rfl (i := i) (j := n) (by rw [hxr.1]; exact hi)
        (by change n < s.x.cols; rw [hxr.2]; omega)
      rw [List.append_assoc]
      exact this
    · intro i hi n hn
      unfold Integrator.envOf
      rw [if_neg hfr.xK.symm, if_pos rfl]
      exact Mat.ofVec_vals (⟨s.Kd.rows, s.Kd.cols, fun _ _ => 0⟩ : Mat K) (⟨s.x.rows, s.x.cols, fun i _ => x0.e i 0⟩ : Mat K).vals
        (⟨s.Z.rows, s.Z.cols, fun i _ => z0.e i 0⟩ : Mat K).vals
        (Mat.vals_length _).symm (i := i) (j := n) (by rw [hKr.1]; exact hi) (by rw [hKr.2]; exact hn)
    · intro i hi n hn
      unfold Integrator.envOf
      rw [if_neg hfr.xZ.symm, if_neg hfr.KZ.symm, if_pos rfl]
      have := Mat.ofVec_vals (⟨s.Z.rows, s.Z.cols, fun i _ => z0.e i 0⟩ : Mat K)
        ((⟨s.x.rows, s.x.cols, fun i _ => x0.e i 0⟩ : Mat K).vals ++ (⟨s.Kd.rows, s.Kd.cols, fun _ _ => 0⟩ : Mat K).vals) []
        (a := s.x.numel + s.Kd.numel) (by simp only [List.length_append, Mat.vals_length]; rfl)
        (i := i) (j := n) (by rw [hZr.1]; exact hi) (by rw [hZr.2]; exact hn)
      rw [List.append_nil] at this
      exact this
    · unfold Integrator.envOf
      rw [if_neg hfr.xu.symm, if_neg hfr.Ku.symm, if_neg hfr.Zu.symm, if_pos rfl]
    · unfold Integrator.envOf
      rw [if_neg hfr.xP.symm, if_neg hfr.KP.symm, if_neg hfr.ZP.symm, if_neg hfr.uP.symm, if_pos rfl]
  have hX : ∀ (x0 : Mat K) (env : Env K), (∀ i < d.x.rows, ∀ n < t.length, env (fresh "x") i n = x0.e i 0) →
      (∀ i < d.x.rows, ∀ c < (t.length - 1) * order, env (fresh "K") i c = 0) →
      ∀ i < d.x.rows, ∀ n < t.length - 1, ∀ j < order, s.X.val env i (n * order + j) = x0.e i 0 := by
    intro x0 env h1 h2 i hi n hn j hj
    rw [b.X env i n j hn hj, h1 i hi n (by omega), Finset.sum_eq_zero, mul_zero, add_zero]
    intro k hk
    rw [h2 i hi _ (block_lt hn (Finset.mem_range.mp hk)), zero_mul]
  have hdiv : ∀ c < (t.length - 1) * order, c / order < t.length - 1 ∧ c % order < order := fun c hc =>
    ⟨Nat.div_lt_of_lt_mul (by rwa [Nat.mul_comm]), Nat.mod_lt _ (Nat.pos_of_ne_zero (by rintro rfl; simp at hc))⟩
  refine ⟨_, hnew, ?_, ?_⟩
  · intro x0 z0 u p
    obtain ⟨w0, hw0, h1, h2, h3, -⟩ := key x0 z0 u p
    simp only [← hw0]
    refine ⟨fun n hn i hi => ?_, fun c hc => ⟨fun i hi => ?_, fun i hi => ?_, fun i hi => ?_⟩⟩
    · rw [b.x]; exact h1 i (by omega) n hn
    · rw [b.Kd]; exact h2 i (by omega) c hc
    · have := hX x0 _ h1 h2 i (by omega) (c / order) (hdiv c hc).1 (c % order) (hdiv c hc).2
      rwa [Nat.mul_comm, Nat.div_add_mod] at this
    · rw [b.Z]; exact h3 i (by omega) c hc
  · intro x0 z0 u p
    obtain ⟨w0, hw0, h1, h2, h3, h4, h5⟩ := key x0 z0 u p
    simp only [← hw0]
    set env := Integrator.envOf fresh s w0 u p with henv
    have hat : ∀ n < t.length - 1, ∀ j < order, ∀ env', AtPoint s d xdot tdp_fun false env env' (n * order + j) ↔
        AtRest d xdot tdp_fun x0 z0 u p n (pointTime t tau n j) env' := by
      intro n hn j hj env'
      have hc := block_lt hn hj
      have hT : nd s.tc (n * order + j) = pointTime t tau n j := b.tc n j hn hj
      have e1 : ∀ i < d.x.rows, s.Kd.val env i (n * order + j) = 0 := fun i hi => by rw [b.Kd]; exact h2 i hi _ hc
      have e2 := fun i hi => hX x0 env h1 h2 i hi n hn j hj
      have e3 : ∀ i < d.z.rows, s.Z.val env i (n * order + j) = z0.e i 0 := fun i hi => by rw [b.Z]; exact h3 i hi _ hc
      have e4 : ∀ i, s.u.val env i ((n * order + j) / s.M) = u.e i n := by
        intro i
        rw [b.M_eq, div_block hj, b.u]
        exact congrFun (congrFun h4 i) n
      have e5 : ∀ i, s.p.val env i 0 = p.e i 0 := by
        intro i
        rw [b.p]
        exact congrFun (congrFun h5 i) 0
      constructor
      · intro h
        exact ⟨fun i hi => (h.xdot i hi).trans (e1 i hi), fun i hi => (h.x i hi).trans (e2 i hi),
          fun i hi => (h.z i hi).trans (e3 i hi), fun i hi => (h.u i hi).trans (e4 i), fun i hi => (h.p i hi).trans (e5 i),
          h.t.trans hT, fun f hf i hi k hk => by rw [h.tdp f hf i hi k hk, hT]⟩
      · intro h
        exact ⟨fun i hi => (h.xdot i hi).trans (e1 i hi).symm, fun i hi => (h.x i hi).trans (e2 i hi).symm,
          fun i hi => (h.z i hi).trans (e3 i hi).symm, fun i hi => (h.u i hi).trans (e4 i).symm,
          fun i hi => (h.p i hi).trans (e5 i).symm, h.t.trans hT.symm,
          fun f hf i hi k hk => by rw [h.tdp f hf i hi k hk, hT]⟩
    have hsplit : (∀ v ∈ s.eq.vals env ++ (List.range dae.nx).map (fun i => x1.val env i 0 - x0.e i 0), v = 0) ↔
        ∀ v ∈ s.eq.vals env, v = 0 := by
      constructor
      · intro h v hv; exact h v (List.mem_append_left _ hv)
      · intro h v hv
        rcases List.mem_append.mp hv with hv | hv
        · exact h v hv
        · obtain ⟨i, hi, rfl⟩ := List.mem_map.mp hv
          have hi := List.mem_range.mp hi
          rw [hx1v, b.x]
          exact sub_eq_zero.mpr (h1 i (by omega) 0 (by omega))
    rw [hsplit, Scheme.eq_zero_iff pre b]
    constructor
    · rintro ⟨hcol, -, -⟩ n hn j hj env' hr i hi k hk
      have hc := block_lt hn hj
      obtain rfl : k = 0 := by rw [pre.wf.res_cols] at hk; omega
      rw [← (((hat n hn j hj env').mpr hr).out hcs pre b.toCore hc).1 i hi]
      exact hcol _ hc i hi
    · intro h
      refine ⟨fun c hc i hi => ?_, fun n hn i hi => ?_, fun h => by simp at h⟩
      · obtain ⟨env', he⟩ := exists_atPoint hcs pre b.toCore env hc
        have hcd : c / order * order + c % order = c := by rw [Nat.mul_comm, Nat.div_add_mod]
        have he' : AtPoint s d xdot tdp_fun false env env' (c / order * order + c % order) := by rwa [hcd]
        rw [(he.out hcs pre b.toCore hc).1 i hi]
        exact h _ (hdiv c hc).1 _ (hdiv c hc).2 env' ((hat _ (hdiv c hc).1 _ (hdiv c hc).2 env').mp he') i hi 0
          (by rw [pre.wf.res_cols]; exact Nat.one_pos)
      · have hi' : i < d.x.rows := by rw [← pre.wf.nx]; exact hi
        rw [b.cont env i n hn, h1 i hi' n (by omega), h1 i hi' (n + 1) (by omega), Finset.sum_eq_zero, mul_zero, add_zero, sub_self]
        intro k hk
        rw [h2 i hi' _ (block_lt hn (Finset.mem_range.mp hk)), zero_mul]

end

/-- For `x' = -x` the search starts at a solution exactly when it starts at `x0 = 0`, whatever the grid and the points. -/
example (freshI : String → ℕ) (hI : 7 ≤ freshI "xdot") (t tau : List ℝ) (two : 2 ≤ t.length) (pos : 0 < tau.length)
    (a : ℝ) : ∃ g, Integrator.new exFresh freshI (fun _ _ => .ok tau) idealCsFunction decayO t tau.length "legendre" none = .ok g ∧
    ((∀ v ∈ g.residual (g.w0 ⟨1, 1, fun _ _ => a⟩ ⟨0, 1, fun _ _ => 0⟩) ⟨1, 1, fun _ _ => a⟩ ⟨0, 1, fun _ _ => 0⟩
      ⟨0, 1, fun _ _ => 0⟩, v = 0) ↔ a = 0) := by
  obtain ⟨F, pre⟩ := decay_pre freshI hI t tau two pos
  have hfr : DistinctSyms exFresh := ⟨by decide, by decide, by decide, by decide, by decide, by decide, by decide, by decide,
    by decide, by decide⟩
  obtain ⟨g, hg, -, h⟩ := C80_initial_point exFresh freshI _ _ _ _ _ _ _ _ _ _ _ _ idealCsFunction_spec pre hfr (Or.inl rfl)
  refine ⟨g, hg, (h _ _ _ _).trans ?_⟩
  constructor
  · intro h0
    have hr := h0 0 (by omega) 0 pos (fun id _ _ => if id = 0 then a else if id = 4 then pointTime t tau 0 0 else 0) (by
      refine ⟨fun i hi => ?_, fun i hi => ?_, fun i hi => absurd hi (Nat.not_lt_zero i), fun i hi => absurd hi (Nat.not_lt_zero i),
        fun i hi => absurd hi (Nat.not_lt_zero i), rfl, fun f hf => by cases hf⟩
      · simp only [MXExpr.sym]; rw [if_neg (by omega), if_neg (by omega)]
      · rfl)
    have := hr 0 Nat.one_pos 0 Nat.one_pos
    simp only [decayRes, Nat.zero_lt_one, if_true] at this
    rw [if_neg (by omega), if_neg (by omega)] at this
    linarith
  · rintro rfl n _ j _ env' hr i hi k hk
    obtain rfl : i = 0 := by change i < 1 at hi; omega
    obtain rfl : k = 0 := by change k < 1 at hk; omega
    have e1 := hr.xdot 0 Nat.one_pos
    have e2 := hr.x 0 Nat.one_pos
    simp only [MXExpr.sym, decayD] at e1 e2
    simp only [decayRes, Nat.zero_lt_one, if_true]
    rw [e1, e2]
    norm_num

end CE
