import Verif.Num.PropsControl

/-! # Property C140: optimal controls of contractive models when costs and constraints contain quadratures -/

open Set

namespace CE

/-- **C140** (any steps, quadratures) As `C140_contractive`, for costs and constraints that depend also on the final quadratures: for
contractive models without algebraic states, Lipschitz continuous quadrature expressions, Gauss or Radau nodes and steps of any length, with
one constant for all models of the same size. -/
theorem C140_contractive_quadrature (tau : List ℝ) (hnode : IsGauss tau ∨ IsRadau tau) (S : ℕ → ℕ → ℝ) (m : ℕ) (hpd : PosDefForm S m) :
    ∃ C ≥ 0, ∀ (fresh freshI : String → ℕ) (casadiPoints : ℕ → String → Except PyErr (List ℝ))
      (csFunction : List (MXExpr ℝ) → List (MXExpr ℝ) → Except PyErr (CsFn ℝ))
      (dae : DaeObj ℝ) (t : List ℝ) (order : ℕ) (method : String) (tdp_fun : Option (ℝ → Mat ℝ))
      (d : DaeObj ℝ) (xdot res : MXExpr ℝ) (F : CsFn ℝ) (rep : Bool) (s : Scheme ℝ), IsCsFunction csFunction →
      SchemePre freshI casadiPoints csFunction dae t order method tdp_fun d xdot res tau F →
      Scheme.new fresh freshI casadiPoints csFunction dae t order method tdp_fun rep = .ok s →
      [fresh "x", fresh "K", fresh "Z", fresh "u", fresh "P"].Nodup → d.nx = m → d.nz = 0 → Contractive d xdot res S →
      LocLipschitzDae d xdot res → ∀ Lq Lqz, 0 ≤ Lq → LipschitzQuadZ d Lq Lqz →
      ∀ H, (∀ n < s.N, nd t n < nd t (n + 1) ∧ nd t (n + 1) - nd t n ≤ H) →
      ∀ (U : Set Decision) (y : Decision → ℕ → ℝ → ℝ) (f ζ : Decision → ℕ → ℕ → ℝ → ℝ) (Y : Decision → ℕ → ℝ → ℝ)
        (g : Decision → ℕ → ℕ → ℝ → ℝ) (B Bq : ℝ), ExactFamily d xdot res tdp_fun t order U y f ζ Y g B Bq → 0 ≤ B → 0 ≤ Bq →
      ∀ (ι : Type) (φ : CostFn) (G : ι → CostFn) (Λ : ℝ), LipschitzCost m d.nq s.N Λ φ → (∀ c, LipschitzCost m d.nq s.N Λ (G c)) →
      ∀ env, Optimal s U φ G env →
      let T₀ := nd t s.N - nd t 0
      let E := C * (B * T₀ * H ^ s.M + T₀ * (Lq * (B * T₀ * H ^ s.M + B * H ^ (s.M + 1)) + Bq * H ^ s.M))
      |s.cost φ env - exactCost t y Y φ (s.decision env)| ≤ Λ * E ∧ (∀ c, exactCost t y Y (G c) (s.decision env) ≤ Λ * E) ∧
      ∀ w ∈ U, (∀ c, exactCost t y Y (G c) w ≤ -(Λ * E)) →
        exactCost t y Y φ (s.decision env) ≤ exactCost t y Y φ w + 2 * (Λ * E) := by
  obtain ⟨hd, hin01, -⟩ := C94_inside tau hnode
  have h01 : ∀ k < tau.length, nd tau k ∈ Icc (0 : ℝ) 1 := by
    intro k hk
    have := hin01 (nd tau k) (by rw [nd_eq_getElem hk]; exact List.getElem_mem hk)
    exact ⟨this.1.le, this.2⟩
  obtain ⟨C, hC, h96⟩ := C96_components tau hnode S m hpd
  obtain ⟨T, hT⟩ : ∃ T : ButcherTableau ℝ, butcherTableuForCollocationPoints tau = .ok T := ⟨_, butcher_ok tau⟩
  set β := ∑ k ∈ Finset.range tau.length, |T.b.e [k]| with hβ
  have hβ0 : 0 ≤ β := Finset.sum_nonneg fun _ _ => abs_nonneg _
  refine ⟨(1 + β) * (C + 1), by positivity, ?_⟩
  intro fresh freshI casadiPoints csFunction dae t order method tdp_fun d xdot res F rep s hcs pre hs hf hm hz law lip Lq Lqz hLq lq H ht U y f ζ
    Y g B Bq ex hB hBq ι φ G Λ hφ hG env opt T₀ E
  have b := pre.built hs
  have hN := b.N_eq
  have hM := b.M_eq
  have hlen := pre.len
  have two := pre.two
  subst hm
  have hH : 0 ≤ H := by
    have := ht 0 (by omega)
    linarith
  have ht' : ∀ n < s.N, nd t n ≤ nd t (n + 1) ∧ nd t (n + 1) - nd t n ≤ H := fun n hn => ⟨(ht n hn).1.le, (ht n hn).2⟩
  have hmono' : ∀ n ≤ s.N, nd t n ≤ nd t s.N := by
    intro n hn
    induction hn using Nat.decreasingInduction with
    | self => exact le_rfl
    | of_succ k hk ih => exact (ht k hk).1.le.trans ih
  have hT0 : 0 ≤ T₀ := sub_nonneg.mpr (hmono' 0 (by omega))
  set A := B * T₀ * H ^ s.M with hA
  have hA0 : 0 ≤ A := by positivity
  set E₀ := A + B * H ^ (s.M + 1) with hE₀
  have hE₀0 : 0 ≤ E₀ := by positivity
  set Q := Bq * H ^ s.M with hQ
  have hQ0 : 0 ≤ Q := by positivity
  have hfac : Q / ((s.M - 1).factorial : ℝ) ≤ Q :=
    div_le_self hQ0 (by exact_mod_cast Nat.one_le_iff_ne_zero.mpr (Nat.factorial_ne_zero _))
  have hR0 : 0 ≤ T₀ * (Lq * E₀ + Q) := by positivity
  have hgrid : ∀ n ≤ s.N, B * (nd t n - nd t 0) * H ^ s.M ≤ A := fun n hn =>
    mul_le_mul_of_nonneg_right (mul_le_mul_of_nonneg_left (sub_le_sub_right (hmono' n hn) _) hB) (pow_nonneg hH _)
  refine suboptimal_core hφ hG (fun w hw => ?_) (fun e he hm => ?_) env opt
  · obtain ⟨e, h1, h2⟩ := exists_decision hf b w
    obtain ⟨e', k1, k2, k3, k4⟩ := C98_exists fresh freshI casadiPoints csFunction dae t order method tdp_fun d xdot res tau F rep s hcs pre hs hf
      lip hnode S hpd law (fun n hn => (ht n hn).1) e (fun _ c _ i _ => by rw [h2, h2]) w.x0
    refine ⟨e', k1, ?_⟩
    have e1 : s.u.val e' = w.u := by funext i n; rw [k3, h1]
    have e2 : (fun i => s.p.val e' i 0) = w.p := by funext i; rw [k4, h2]
    have e3 : (fun i => s.x.val e' i 0) = w.x0 := by funext i; rw [k2]
    rw [Scheme.decision, e1, e2, e3]
  · set w := s.decision e with hw
    obtain ⟨c1, c2⟩ := h96 fresh freshI casadiPoints csFunction dae t order method tdp_fun d xdot res F rep s hcs pre hs hf rfl law H ht e he
      (y w) (f w) (ζ w) (ex.dae w hm) B hB (fun n hn => by rw [hM]; exact ex.smooth w hm n (by omega))
      (fun n hn => by rw [hM]; exact ex.bound w hm n (by omega)) 0 le_rfl
      (fun i hi => by rw [ex.start w hm i hi, hw]; simp [Scheme.decision])
    refine ⟨fun n hn i hi => (c1 n hn i hi).trans ?_, fun k hk => ?_⟩
    · rw [zero_add]
      refine (mul_le_mul_of_nonneg_left (hgrid n hn) hC).trans ?_
      have p1 : 0 ≤ (1 + β * (C + 1)) * A := by positivity
      have p2 : 0 ≤ (1 + β) * (C + 1) * (T₀ * (Lq * E₀ + Q)) := by positivity
      simp only [E]
      linarith
    · have cq := C88_quadrature fresh freshI casadiPoints csFunction dae t order method tdp_fun d xdot res tau F rep s hcs pre hs hf Lq Lqz lq hd
        h01 T hT β H (by rw [hM, ← hlen]) ht' e he (y w) (ζ w) (Y w) (g w) (ex.quad w hm) Bq (C * E₀) 0
        (fun n hn => by rw [hM]; exact ex.smoothQ w hm n (by omega)) (fun n hn => by rw [hM]; exact ex.boundQ w hm n (by omega))
        (fun n hn j hj i hi => by
          refine (c2 n hn j hj i hi).trans (mul_le_mul_of_nonneg_left ?_ hC)
          rw [zero_add]
          linarith [hgrid n hn.le])
        (fun n _ j _ k hk => by omega) (by rw [mul_zero, add_zero]; positivity) s.N le_rfl k hk
      rw [← hN]
      refine cq.trans ?_
      rw [mul_zero, add_zero]
      have p1 : 0 ≤ (1 + β) * (C + 1) * A := by positivity
      have p2 : (1 + β) * (Q / ((s.M - 1).factorial : ℝ)) ≤ (1 + β) * Q := mul_le_mul_of_nonneg_left hfac (by positivity)
      have p3 : 0 ≤ (C + (1 + β)) * (Lq * E₀) := by positivity
      have p4 : 0 ≤ (1 + β) * C * Q := by positivity
      have p5 : β * (Lq * (C * E₀)) + (1 + β) * (Q / ((s.M - 1).factorial : ℝ)) ≤ (1 + β) * (C + 1) * (Lq * E₀ + Q) := by linarith
      have p6 := mul_le_mul_of_nonneg_left p5 hT0
      simp only [E]
      calc _ ≤ T₀ * ((1 + β) * (C + 1) * (Lq * E₀ + Q)) := p6
        _ ≤ _ := by linarith

/-! ## Non-vacuity -/

/-- The distance of the final quadrature from `c`. -/
def missQuad (c : ℝ) : CostFn := fun _ q _ => |q 0 - c|

theorem missQuad_lipschitz (nx N : ℕ) (c : ℝ) : LipschitzCost nx 1 N 1 (missQuad c) := by
  intro X X' q q' w δ _ h
  have := h 0 Nat.one_pos
  rw [one_mul, missQuad, missQuad]
  refine (abs_abs_sub_abs_le_abs_sub _ _).trans ?_
  rwa [sub_sub_sub_cancel_right]

/-- One constant for all `λ >= 0`: for `x' = p cos(t) - λ (x - p sin(t))` with the quadrature `x`, the parameter in [-1, 1] that brings the
computed integral of the state closest to `c` brings the exact integral `p (1 - cos(T))` closest to `c` up to the constant times
`T*H^M + T*(T*H^M + H^(M+1) + H^M)`. -/
example (tau : List ℝ) (hnode : IsGauss tau ∨ IsRadau tau) (hpos : 0 < tau.length) (freshI : String → ℕ) (hI : 6 ≤ freshI "xdot") :
    ∃ C ≥ 0, ∀ (l c : ℝ) (t : List ℝ) (H : ℝ), 0 ≤ l → 2 ≤ t.length → nd t 0 = 0 →
      (∀ n < t.length - 1, nd t n < nd t (n + 1) ∧ nd t (n + 1) - nd t n ≤ H) → ∃ s,
      Scheme.new exFresh freshI (fun _ _ => .ok tau) idealCsFunction (odeUO 1 0 1 1 (followF l) fun env _ => env 0 0 0) t tau.length
        "legendre" none = .ok s ∧
      ∀ env, Optimal s relaxU (missQuad c) (fun c : Empty => c.elim) env → ∀ q, |q| ≤ 1 →
        let T := nd t s.N
        |s.p.val env 0 0 * (1 - Real.cos T) - c| ≤ |q * (1 - Real.cos T) - c| +
          2 * (C * (T * H ^ tau.length + T * (T * H ^ tau.length + H ^ (tau.length + 1) + H ^ tau.length))) := by
  have hq : PosDefForm (fun _ _ => 1) 1 := by
    rintro v ⟨i, hi, hv⟩
    obtain rfl : i = 0 := by omega
    show 0 < ∑ i ∈ Finset.range 1, ∑ j ∈ Finset.range 1, _
    simp only [Finset.sum_range_one, one_mul]
    exact mul_self_pos.mpr hv
  obtain ⟨C, hC, key⟩ := C140_contractive_quadrature tau hnode (fun _ _ => 1) 1 hq
  refine ⟨C, hC, fun l c t H hl two h0 ht => ?_⟩
  obtain ⟨F, pre⟩ := odeU_pre freshI hI 1 0 1 1 (followF l) (fun env _ => env 0 0 0) (fun e e' hx hu hp ht => ⟨fun i hi => by
    simp [followF, hx 0 Nat.one_pos, hp 0 Nat.one_pos, ht], fun _ _ => hx 0 Nat.one_pos⟩) rfl t tau two hpos
  obtain ⟨s, hs⟩ := C26_constructed exFresh freshI _ _ _ _ _ _ _ _ _ _ _ _ false pre
  have b := pre.built hs
  have hN : s.N = t.length - 1 := b.N_eq
  have hM : s.M = tau.length := b.M_eq
  have hz := fun e => ode_residual freshI 1 (followF l) e
  refine ⟨s, hs, fun env opt q hq => ?_⟩
  intro T
  have hcos : ∀ (w : Decision) n, ContDiff ℝ n (fun τ => w.p 0 * Real.cos τ) := fun w n => contDiff_const.mul Real.contDiff_cos
  have hsin : ∀ (w : Decision) n, ContDiff ℝ n (fun τ => w.p 0 * Real.sin τ) := fun w n => contDiff_const.mul Real.contDiff_sin
  have k := (key exFresh freshI _ _ _ _ _ _ _ _ _ _ _ false s idealCsFunction_spec pre hs (by decide) rfl rfl
    (fun e e' h h' _ hp ht' _ => by
      have h1 := (hz e).mp h 0 Nat.one_pos
      have h2 := (hz e').mp h' 0 Nat.one_pos
      have h3 : e 3 0 0 = e' 3 0 0 := hp 0 Nat.one_pos
      have h4 : e 4 0 0 = e' 4 0 0 := ht'
      show ∑ i ∈ Finset.range 1, ∑ j ∈ Finset.range 1, _ ≤ _
      simp only [Finset.sum_range_one, one_mul]
      show (e (freshI "xdot") 0 0 - e' (freshI "xdot") 0 0) * (e 0 0 0 - e' 0 0 0) +
        (e 0 0 0 - e' 0 0 0) * (e (freshI "xdot") 0 0 - e' (freshI "xdot") 0 0) ≤ 0
      rw [h1, h2, followF, followF, h3, h4]
      nlinarith [mul_nonneg hl (sq_nonneg (e 0 0 0 - e' 0 0 0))])
    ⟨fun ξ u p τ r => ⟨fun _ => p 0 * Real.cos τ - l * (ξ 0 - p 0 * Real.sin τ), fun _ => 0, fun e h => (hz e).mpr fun i hi => by
      have h1 : e (freshI "xdot") i 0 = _ := h.xdot i hi
      have h2 : e 0 0 0 = _ := h.x 0 Nat.one_pos
      have h3 : e 4 0 0 = _ := h.t
      have h4 : e 3 0 0 = _ := h.p 0 Nat.one_pos
      rw [h1, followF, h2, h3, h4]⟩, fun e₀ R => ⟨l, fun e e' r r' h h' _ δ _ hδ => ⟨fun i hi => by
        have h1 := (hz e).mp r i hi
        have h2 := (hz e').mp r' i hi
        have h3 : e 4 0 0 = e' 4 0 0 := (h.symm.trans h').t
        have h4 : e 3 0 0 = e' 3 0 0 := (h.symm.trans h').p 0 Nat.one_pos
        have hx : |e 0 0 0 - e' 0 0 0| ≤ δ := hδ 0 Nat.one_pos
        show |e (freshI "xdot") i 0 - e' (freshI "xdot") i 0| ≤ _
        rw [h1, h2, followF, followF, h3, h4, show ∀ a b c s : ℝ, c - l * (a - s) - (c - l * (b - s)) = -(l * (a - b)) from
          fun a b c s => by ring, abs_neg, abs_mul, abs_of_nonneg hl]
        exact mul_le_mul_of_nonneg_left hx hl, fun k hk => absurd hk (Nat.not_lt_zero _)⟩⟩⟩ 1 0 zero_le_one
    (fun e e' _ _ _ _ δ η hx _ k _ => by
      have : |e 0 0 0 - e' 0 0 0| ≤ δ := hx 0 Nat.one_pos
      simpa [odeUD] using this)
    H (fun n hn => ht n (by omega)) relaxU (fun w _ τ => w.p 0 * Real.sin τ) (fun w _ _ τ => w.p 0 * Real.cos τ) (fun _ _ _ _ => 0)
    (fun w _ τ => w.p 0 * -Real.cos τ) (fun w _ _ τ => w.p 0 * Real.sin τ) 1 1
    ⟨fun w _ => ⟨fun n _ i _ τ _ => ((Real.hasDerivAt_sin τ).const_mul (w.p 0)).hasDerivWithinAt, fun n _ τ _ e h => (hz e).mpr fun i hi => by
        have h1 : e (freshI "xdot") i 0 = _ := h.xdot i hi
        have h2 : e 0 0 0 = _ := h.x 0 Nat.one_pos
        have h3 : e 4 0 0 = _ := h.t
        have h4 : e 3 0 0 = _ := h.p 0 Nat.one_pos
        rw [h1, followF, h2, h3, h4]
        ring⟩, fun w hw i hi => by
        change i < 1 at hi
        obtain rfl : i = 0 := by omega
        rw [h0, hw.1]
        simp, fun w _ => ⟨fun n _ k _ τ _ => by
          have := ((Real.hasDerivAt_cos τ).neg).const_mul (w.p 0)
          rw [neg_neg] at this
          exact this.hasDerivWithinAt, fun n _ τ _ v e h k _ => h.x 0 Nat.one_pos⟩,
      fun w _ n _ i _ => (hcos w _).contDiffOn, fun w hw n hn i _ τ hτ => by
        rw [iteratedDerivWithin_eq_iteratedDeriv (uniqueDiffOn_Icc (ht n hn).1) (hcos w _).contDiffAt hτ,
          iteratedDeriv_const_mul_field, abs_mul]
        have h1 := (abs_iteratedDeriv_trig tau.length τ).2
        nlinarith [hw.2, abs_nonneg (w.p 0), abs_nonneg (iteratedDeriv tau.length Real.cos τ)],
      fun w _ n _ k _ => (hsin w _).contDiffOn, fun w hw n hn k _ τ hτ => by
        rw [iteratedDerivWithin_eq_iteratedDeriv (uniqueDiffOn_Icc (ht n hn).1) (hsin w _).contDiffAt hτ,
          iteratedDeriv_const_mul_field, abs_mul]
        have h1 := (abs_iteratedDeriv_trig tau.length τ).1
        nlinarith [hw.2, abs_nonneg (w.p 0), abs_nonneg (iteratedDeriv tau.length Real.sin τ)]⟩ zero_le_one zero_le_one Empty
    (missQuad c) (fun c : Empty => c.elim) 1 (missQuad_lipschitz _ _ _) (fun c => c.elim) env opt).2.2 ⟨fun _ _ => 0, fun _ => q, fun _ => 0⟩
    ⟨rfl, hq⟩ (fun c => c.elim)
  simp only [exactCost, missQuad, Scheme.decision, h0, sub_zero, one_mul, hM, ← hN, Real.cos_zero] at k
  rw [show ∀ a : ℝ, a * (1 - Real.cos T) = a * -Real.cos T - a * -1 from fun a => by ring,
    show q * (1 - Real.cos T) = q * -Real.cos T - q * -1 by ring]
  exact k

end CE
