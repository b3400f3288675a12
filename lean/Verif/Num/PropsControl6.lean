import Verif.Num.PropsControl2
import Verif.Num.PropsControl5

/-! # Property C140: optimal control problems that the solver solves up to tolerances, for regular models and small steps -/

open Set

namespace CE

section
variable (fresh freshI : String → ℕ) (casadiPoints : ℕ → String → Except PyErr (List ℝ))
    (csFunction : List (MXExpr ℝ) → List (MXExpr ℝ) → Except PyErr (CsFn ℝ))
    (dae : DaeObj ℝ) (t : List ℝ) (order : ℕ) (method : String) (tdp_fun : Option (ℝ → Mat ℝ))
    (d : DaeObj ℝ) (xdot res : MXExpr ℝ) (tau : List ℝ) (F : CsFn ℝ) (rep : Bool) (s : Scheme ℝ)

/-- **C140** (tolerances, small steps) As `C140_small_steps`, for a regular model and a solution up to tolerances: with the error `E` of
`C140_small_steps` and an explicit `P` proportional to `tol`, the computed cost differs from the exact cost at most by `Λ (E + P)`, the exact
solution violates the constraints at most by `Λ (E + P) + η`, and no decision whose exact solution satisfies the constraints with the margin
`Λ E` is better by more than `Λ (2 E + P) + η`. -/
theorem C140_tolerance_small_steps (hcs : IsCsFunction csFunction)
    (pre : SchemePre freshI casadiPoints csFunction dae t order method tdp_fun d xdot res tau F)
    (hs : Scheme.new fresh freshI casadiPoints csFunction dae t order method tdp_fun rep = .ok s)
    (hf : [fresh "x", fresh "K", fresh "Z", fresh "u", fresh "P"].Nodup) (L Lz R Rz θ : ℝ) (reg : RegularDae d xdot res L Lz R Rz)
    (hsol : Solvable d xdot res) (hLz : 0 ≤ Lz) (hRz : 0 ≤ Rz) (Lq Lqz : ℝ) (lip : LipschitzQuadZ d Lq Lqz) (hLq : 0 ≤ Lq) (hLqz : 0 ≤ Lqz)
    (hd : tau.Nodup) (h01 : ∀ k < tau.length, nd tau k ∈ Icc (0 : ℝ) 1)
    (T : ButcherTableau ℝ) (hT : butcherTableuForCollocationPoints tau = .ok T) (α β H : ℝ)
    (hα : ∀ j < s.M, ∑ k ∈ Finset.range s.M, |T.A.e [j, k]| ≤ α) (hβ : ∑ k ∈ Finset.range s.M, |T.b.e [k]| ≤ β)
    (ht : ∀ n < s.N, nd t n ≤ nd t (n + 1) ∧ nd t (n + 1) - nd t n ≤ H) (hθ : θ < 1) (hstep : L * (H * α) ≤ θ)
    (U : Set Decision) (y : Decision → ℕ → ℝ → ℝ) (f ζ : Decision → ℕ → ℕ → ℝ → ℝ) (Y : Decision → ℕ → ℝ → ℝ)
    (g : Decision → ℕ → ℕ → ℝ → ℝ) (B Bq : ℝ) (ex : ExactFamily d xdot res tdp_fun t order U y f ζ Y g B Bq) (hB : 0 ≤ B) (hBq : 0 ≤ Bq)
    {ι : Type} (φ : CostFn) (G : ι → CostFn) (Λ : ℝ) (hφ : LipschitzCost d.nx d.nq s.N Λ φ)
    (hG : ∀ c, LipschitzCost d.nx d.nq s.N Λ (G c)) (tol η : ℝ) (env : Env ℝ) (htol : 0 ≤ tol) (opt : NearOptimal s U φ G tol η env)
    (hrep : rep = true → ∀ c < s.N * s.M, ∀ i < d.np, s.p.val env i c = s.p.val env i 0) :
    let D := B * H ^ s.M / ((s.M - 1).factorial : ℝ)
    let Dq := Bq * H ^ s.M / ((s.M - 1).factorial : ℝ)
    let γ := β * L / (1 - θ)
    let T₀ := nd t s.N - nd t 0
    let Ex := Real.exp (γ * T₀) * (T₀ * ((1 + β + γ * H * (1 + α)) * D))
    let Ep := (Ex + H * (1 + α) * D) / (1 - θ)
    let E := Ex + T₀ * (β * ((Lq + Lqz * Lz) * Ep) + (1 + β) * Dq)
    let Px := Real.exp (γ * T₀) * (T₀ * (β * R / (1 - θ) * tol) + s.N * tol)
    let Pp := (Px + H * α * (R * tol)) / (1 - θ)
    let P := Px + T₀ * (β * (Lq * Pp + Lqz * (Lz * Pp + Rz * tol)))
    |s.cost φ env - exactCost t y Y φ (s.decision env)| ≤ Λ * (E + P) ∧ (∀ c, exactCost t y Y (G c) (s.decision env) ≤ Λ * (E + P) + η) ∧
    ∀ w ∈ U, (∀ c, exactCost t y Y (G c) w ≤ -(Λ * E)) →
      exactCost t y Y φ (s.decision env) ≤ exactCost t y Y φ w + (Λ * (2 * E + P) + η) := by
  intro D Dq γ T₀ Ex Ep E Px Pp P
  have b := pre.built hs
  have hN := b.N_eq
  have hM := b.M_eq
  have hpos := pre.pos
  have two := pre.two
  obtain ⟨hL, hR⟩ := reg.nonneg
  have ix := reg.indexOne pre.wf.res_cols
  have hα0 : 0 ≤ α := (Finset.sum_nonneg fun _ _ => abs_nonneg _).trans (hα 0 (by omega))
  have hβ0 : 0 ≤ β := (Finset.sum_nonneg fun _ _ => abs_nonneg _).trans hβ
  have hH : 0 ≤ H := by
    have := ht 0 (by omega)
    linarith
  have hθ' : 0 < 1 - θ := by linarith
  have hγ : 0 ≤ γ := by positivity
  have hT0 : 0 ≤ T₀ := by
    have : ∀ n ≤ s.N, nd t 0 ≤ nd t n := by
      intro n
      induction n with
      | zero => intro _; exact le_rfl
      | succ n ih => intro hn; exact (ih (by omega)).trans (ht n (by omega)).1
    have := this s.N le_rfl
    simp only [T₀]; linarith
  -- two assignments with the same decision
  have close : ∀ (τ τ' : ℝ) (e e' : Env ℝ), 0 ≤ τ → 0 ≤ τ' → (∀ v ∈ s.eq.vals e, |v| ≤ τ) → (∀ v ∈ s.eq.vals e', |v| ≤ τ') →
      s.decision e = s.decision e' → (∀ c < s.p.cols, ∀ i < d.np, s.p.val e i c = s.p.val e' i c) → ∀ ψ, LipschitzCost d.nx d.nq s.N Λ ψ →
      |s.cost ψ e - s.cost ψ e'| ≤ Λ * (Real.exp (γ * T₀) * (0 + T₀ * (β * R / (1 - θ) * (τ + τ')) + s.N * (τ + τ')) +
        T₀ * (β * (Lq * ((Real.exp (γ * T₀) * (0 + T₀ * (β * R / (1 - θ) * (τ + τ')) + s.N * (τ + τ')) + H * α * (R * (τ + τ'))) / (1 - θ)) +
          Lqz * (Lz * ((Real.exp (γ * T₀) * (0 + T₀ * (β * R / (1 - θ) * (τ + τ')) + s.N * (τ + τ')) + H * α * (R * (τ + τ'))) / (1 - θ)) +
            Rz * (τ + τ'))))) := by
    intro τ τ' e e' hτ hτ' he he' hdec hp ψ hψ
    have hu : ∀ n < s.N, ∀ i < d.nu, s.u.val e i n = s.u.val e' i n := fun n _ i _ => congrFun (congrFun (congrArg Decision.u hdec) i) n
    have h0 : ∀ i < d.nx, |s.x.val e i 0 - s.x.val e' i 0| ≤ 0 := fun i _ => by
      have h : s.x.val e i 0 = s.x.val e' i 0 := congrFun (congrArg Decision.x0 hdec) i
      rw [h, sub_self, abs_zero]
    have k1 := (C97_inexact fresh freshI casadiPoints csFunction dae t order method tdp_fun d xdot res tau F rep s hcs pre hs L Lz R Rz θ reg T hT
      α β H hα hβ ht hθ hstep e e' τ τ' 0 he he' ⟨hτ, hτ'⟩ hu hp le_rfl h0).1
    have k2 := C119_inexact fresh freshI casadiPoints csFunction dae t order method tdp_fun d xdot res tau F rep s hcs pre hs L Lz R Rz θ Lq Lqz
      reg lip ⟨hLz, hRz, hLq, hLqz⟩ T hT α β H hα hβ ht hθ hstep e e' τ τ' 0 he he' ⟨hτ, hτ'⟩ hu hp le_rfl h0
    have mono := bound_mono (nd t) s.N (fun n hn => (ht n hn).1) γ 0 (β * R / (1 - θ) * (τ + τ')) (τ + τ') hγ le_rfl (by positivity)
      (by positivity)
    have hτ'' : 0 ≤ τ + τ' := by positivity
    have h2 : s.cost ψ e' = ψ (s.x.val e') (fun k => s.q.val e' k s.N) (s.decision e) := by rw [hdec]; rfl
    rw [h2]
    refine hψ _ _ _ _ _ _ (fun n hn i hi => ((k1 n hn i hi).trans (mono n hn).2).trans ?_) (fun k hk => ((k2 k hk).1 s.N le_rfl).trans ?_)
    · refine le_add_of_nonneg_right ?_
      positivity
    · refine le_add_of_nonneg_left ?_
      positivity
  -- the exact solutions of the equations
  have key : ∀ ψ, LipschitzCost d.nx d.nq s.N Λ ψ → ∀ e, (∀ v ∈ s.eq.vals e, v = 0) → s.decision e ∈ U →
      |s.cost ψ e - exactCost t y Y ψ (s.decision e)| ≤ Λ * E := by
    intro ψ hψ e he hm
    refine (C140_small_steps fresh freshI casadiPoints csFunction dae t order method tdp_fun d xdot res tau F rep s hcs pre hs hf L Lz θ ix hsol
      hLz Lq Lqz lip hLq hLqz hd h01 T hT α β H hα hβ ht hθ hstep {s.decision e} y f ζ Y g B Bq
      ⟨fun w h => ex.dae w (by rw [h]; exact hm), fun w h => ex.start w (by rw [h]; exact hm), fun w h => ex.quad w (by rw [h]; exact hm),
        fun w h => ex.smooth w (by rw [h]; exact hm), fun w h => ex.bound w (by rw [h]; exact hm),
        fun w h => ex.smoothQ w (by rw [h]; exact hm), fun w h => ex.boundQ w (by rw [h]; exact hm)⟩ hB hBq ψ (fun c : Empty => c.elim) Λ hψ
      (fun c => c.elim) e ⟨⟨he, rfl, fun c => c.elim⟩, fun e' fe => ?_⟩).1
    have hpar : ∀ e, (∀ v ∈ s.eq.vals e, v = 0) → ∀ c < s.p.cols, ∀ i < d.np, s.p.val e i c = s.p.val e i 0 := by
      intro e he c hc i hi
      have hpc : s.p.cols = if rep then (t.length - 1) * order else 1 := by rw [b.p]; rfl
      rw [hpc] at hc
      cases hr : rep
      · rw [hr] at hc
        obtain rfl : c = 0 := by simpa using hc
        rfl
      · rw [hr] at hc
        exact ((Scheme.eq_zero_iff pre b e).mp he).2.2 hr c hc i hi
    have hdec : s.decision e = s.decision e' := fe.mem.symm
    have h := close 0 0 e e' le_rfl le_rfl (fun v hv => by rw [he v hv, abs_zero]) (fun v hv => by rw [fe.eq v hv, abs_zero]) hdec
      (fun c hc i hi => by
        rw [hpar e he c hc i hi, hpar e' fe.eq c hc i hi]
        exact congrFun (congrArg Decision.p hdec) i) ψ hψ
    simp only [add_zero, mul_zero, zero_div] at h
    linarith [(abs_le.mp h).2]
  have hst : ∀ n < s.N, ∀ j < s.M, L * (|nd t (n + 1) - nd t n| * ∑ k ∈ Finset.range s.M, |T.A.e [j, k]|) ≤ θ := fun n hn j hj => by
    have hh := ht n hn
    rw [abs_of_nonneg (by linarith)]
    refine le_trans (mul_le_mul_of_nonneg_left ?_ hL) hstep
    exact mul_le_mul hh.2 (hα j hj) (Finset.sum_nonneg fun _ _ => abs_nonneg _) hH
  -- the exact solution of the equations with the computed decision
  obtain ⟨e₀, heq, l1, l2, l3⟩ := C88_exists fresh freshI casadiPoints csFunction dae t order method tdp_fun d xdot res tau F rep s hcs pre hs hf
    L Lz θ ix hsol hθ T hT hst env hrep (fun i => s.x.val env i 0)
  have hdec : s.decision env = s.decision e₀ := by
    have e1 : s.u.val e₀ = s.u.val env := by funext i n; rw [l2]
    have e2 : (fun i => s.p.val e₀ i 0) = fun i => s.p.val env i 0 := by funext i; rw [l3]
    have e3 : (fun i => s.x.val e₀ i 0) = fun i => s.x.val env i 0 := by funext i; rw [l1]
    rw [Scheme.decision, Scheme.decision, e1, e2, e3]
  have key' : ∀ ψ, LipschitzCost d.nx d.nq s.N Λ ψ → |s.cost ψ env - exactCost t y Y ψ (s.decision env)| ≤ Λ * (E + P) := by
    intro ψ hψ
    have h1 := close tol 0 env e₀ htol le_rfl opt.eq (fun v hv => by rw [heq v hv, abs_zero]) hdec (fun c _ i _ => (l3 i c).symm) ψ hψ
    simp only [add_zero, zero_add] at h1
    have h2 := key ψ hψ e₀ heq (hdec ▸ opt.mem)
    rw [← hdec] at h2
    have h3 := abs_sub_le (s.cost ψ env) (s.cost ψ e₀) (exactCost t y Y ψ (s.decision env))
    have h4 : |s.cost ψ env - s.cost ψ e₀| ≤ Λ * P := h1
    linarith
  have h1 := key' φ hφ
  refine ⟨h1, fun c => ?_, fun w hw hc => ?_⟩
  · have := abs_le.mp (key' (G c) (hG c))
    have := opt.con c
    linarith
  · obtain ⟨e, k1, k2⟩ := exists_decision hf b w
    obtain ⟨e', heq', m1, m2, m3⟩ := C88_exists fresh freshI casadiPoints csFunction dae t order method tdp_fun d xdot res tau F rep s hcs pre hs hf
      L Lz θ ix hsol hθ T hT hst e (fun _ c _ i _ => by rw [k2, k2]) w.x0
    have hdec' : s.decision e' = w := by
      have e1 : s.u.val e' = w.u := by funext i n; rw [m2, k1]
      have e2 : (fun i => s.p.val e' i 0) = w.p := by funext i; rw [m3, k2]
      have e3 : (fun i => s.x.val e' i 0) = w.x0 := by funext i; rw [m1]
      rw [Scheme.decision, e1, e2, e3]
    subst hdec'
    have h2 := abs_le.mp (key φ hφ e' heq' hw)
    have h3 := opt.min e' ⟨heq', hw, fun c => by
      have := abs_le.mp (key (G c) (hG c) e' heq' hw)
      have := hc c
      linarith⟩
    have := abs_le.mp h1
    linarith

end

/-! ## Non-vacuity -/

/-- `x' = p - x`, `x(0) = 0` and the midpoint rule: a parameter in [-1, 1] that a solver finds with the equations solved up to `tol` and a
distance of the computed final state from `c` within `η` of the least one brings the exact final state nearly as close to `c` as any other. -/
example (freshI : String → ℕ) (hI : 6 ≤ freshI "xdot") (t : List ℝ) (two : 2 ≤ t.length) (H c : ℝ) (hH : H ≤ 1)
    (h0 : nd t 0 = 0) (ht : ∀ n < t.length - 1, 0 ≤ nd t n ∧ nd t n < nd t (n + 1) ∧ nd t (n + 1) - nd t n ≤ H) : ∃ s,
    Scheme.new exFresh freshI (fun _ _ => .ok [1 / 2]) idealCsFunction (odeUO 1 0 1 0 relaxF fun _ _ => 0) t 1 "legendre" none = .ok s ∧
    ∀ tol η env, 0 ≤ tol → NearOptimal s relaxU (missBy s.N c) (fun c : Empty => c.elim) tol η env →
      let T₀ := nd t s.N
      let p := s.p.val env 0 0
      ∀ q, |q| ≤ 1 → |p * (1 - Real.exp (-T₀)) - c| ≤ |q * (1 - Real.exp (-T₀)) - c| +
        (Real.exp (2 * T₀) * (T₀ * (10 * H) + (2 * T₀ + s.N) * tol) + η) := by
  obtain ⟨F, pre⟩ := odeU_pre freshI hI 1 0 1 0 relaxF (fun _ _ => 0) (fun e e' hx hu hp ht => ⟨fun i hi => by
    simp [relaxF, hx 0 Nat.one_pos, hp 0 Nat.one_pos], fun _ _ => rfl⟩) rfl t [1 / 2] two (by simp)
  have pre : SchemePre freshI (fun _ _ => .ok [1 / 2]) idealCsFunction (odeUO 1 0 1 0 relaxF fun _ _ => 0) t 1 "legendre" none
    (odeUD freshI 1 0 1 0 relaxF fun _ _ => 0) (.sym (freshI "xdot") 1) (odeRes freshI 1 relaxF) [1 / 2] F := pre
  obtain ⟨s, hs⟩ := C26_constructed exFresh freshI _ _ _ _ _ _ _ _ _ _ _ _ false pre
  have b := pre.built hs
  have hN : s.N = t.length - 1 := b.N_eq
  have hM : s.M = 1 := b.M_eq
  obtain ⟨T, hT, hA, hB, -⟩ := C09_butcher_consistent ([1 / 2] : List ℝ) (by simp) (by simp)
  obtain ⟨T', hT', -, -, -, hc, -⟩ := C08_butcher_exact ([1 / 2] : List ℝ) (by simp)
  rw [hT] at hT'
  cases hT'
  have hA0 : T.A.e [0, 0] = 1 / 2 := by
    have := hA 0 (by simp)
    rw [hc 0 (by simp)] at this
    simpa using this
  have hB0 : T.b.e [0] = 1 := by simpa using hB
  obtain ⟨-, sol⟩ := relax_index freshI
  refine ⟨s, hs, fun tol η env htol opt => ?_⟩
  intro T₀ p
  have hT0 : 0 ≤ T₀ := by
    have := ht (t.length - 1 - 1) (by omega)
    rw [show t.length - 1 - 1 + 1 = s.N by omega] at this
    simp only [T₀]; linarith
  have hH0 : 0 ≤ H := by
    have := ht 0 (by omega)
    linarith
  have key := C140_tolerance_small_steps exFresh freshI _ _ _ _ _ _ _ _ _ _ _ _ false s idealCsFunction_spec pre hs (by decide) 1 0 1 0 (1 / 2) (relax_regular freshI) sol
    le_rfl le_rfl
    0 0 (fun e e' _ _ _ _ δ η _ _ k hk => absurd hk (Nat.not_lt_zero _)) le_rfl le_rfl (by simp) (fun k hk => by
      simp only [List.length_cons, List.length_nil] at hk
      obtain rfl : k = 0 := by omega
      constructor <;> norm_num [nd]) T hT (1 / 2) 1 H (fun j hj => by
      rw [hM] at hj ⊢
      obtain rfl : j = 0 := by omega
      simp [hA0]) (by rw [hM]; simp [hB0]) (fun n hn => by
      have := ht n (by omega)
      exact ⟨this.2.1.le, this.2.2⟩) (by norm_num) (by linarith) relaxU _ _ _ _ _ 1 0
    (relax_family freshI t h0 fun n hn => ⟨(ht n hn).1, (ht n hn).2.1⟩) zero_le_one le_rfl (missBy s.N c) (fun c : Empty => c.elim) 1
    (missBy_lipschitz _ _ _) (fun c => c.elim) tol η env htol opt (fun h => by cases h)
  simp only [hM, h0, sub_zero, Nat.sub_self, Nat.factorial_zero, Nat.cast_one, div_one, pow_one, one_mul, zero_mul, mul_zero, add_zero,
    Scheme.cost, exactCost, missBy, Scheme.decision] at key
  obtain ⟨-, -, k3⟩ := key
  have hE : Real.exp (1 / (1 - 1 / 2) * T₀) * (T₀ * ((1 + 1 + 1 / (1 - 1 / 2) * H * (1 + 1 / 2)) * H)) ≤ Real.exp (2 * T₀) * (T₀ * (5 * H)) := by
    rw [show (1 : ℝ) / (1 - 1 / 2) = 2 by norm_num]
    refine mul_le_mul_of_nonneg_left (mul_le_mul_of_nonneg_left ?_ hT0) (Real.exp_pos _).le
    nlinarith
  have hP : Real.exp (1 / (1 - 1 / 2) * T₀) * (T₀ * (1 / (1 - 1 / 2) * tol) + s.N * tol) = Real.exp (2 * T₀) * ((2 * T₀ + s.N) * tol) := by
    rw [show (1 : ℝ) / (1 - 1 / 2) = 2 by norm_num]
    ring
  intro q hq
  have := k3 ⟨fun _ _ => 0, fun _ => q, fun _ => 0⟩ ⟨rfl, hq⟩ (fun c => c.elim)
  simp only [T₀, p] at this hE hP ⊢
  linarith

end CE
