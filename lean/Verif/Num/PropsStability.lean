import Verif.Num.PropsControl2

/-! # Property C141: dependence of the solutions on the inputs and parameters -/

open Set

namespace CE

/-- For equal values of the state derivative, the states and the time the residual changes at most by `Lu δ` when the inputs and parameters
change at most by `δ`. -/
structure LipschitzInData (d : DaeObj ℝ) (xdot res : MXExpr ℝ) (Lu : ℝ) : Prop where
  nonneg : 0 ≤ Lu
  lip : ∀ e e' : Env ℝ, (∀ i < d.x.rows, xdot.val e i 0 = xdot.val e' i 0) → (∀ i < d.x.rows, d.x.val e i 0 = d.x.val e' i 0) →
    (∀ i < d.z.rows, d.z.val e i 0 = d.z.val e' i 0) → d.t.val e 0 0 = d.t.val e' 0 0 →
    (∀ i < d.tdp.rows, ∀ j < d.tdp.cols, d.tdp.val e i j = d.tdp.val e' i j) →
    ∀ δ, (∀ i < d.u.rows, |d.u.val e i 0 - d.u.val e' i 0| ≤ δ) → (∀ i < d.p.rows, |d.p.val e i 0 - d.p.val e' i 0| ≤ δ) →
      ∀ i < res.rows, |res.val e i 0 - res.val e' i 0| ≤ Lu * δ

theorem gronwall_sum (t : ℕ → ℝ) (N : ℕ) (ht : ∀ n < N, t n ≤ t (n + 1)) (Λ σ : ℝ) (g : ℕ → ℝ) (hΛ : 0 ≤ Λ) (hg : ∀ n < N, 0 ≤ g n)
    (hσ : 0 ≤ σ) (e : ℝ) (p : ℕ → ℝ → Prop) (h0 : p 0 e)
    (hp : ∀ n < N, ∀ a, 0 ≤ a → p n a → p (n + 1) (a + (t (n + 1) - t n) * (Λ * a + g n) + σ))
    (hmono : ∀ n a a', a ≤ a' → p n a → p n a') (he : 0 ≤ e) :
    ∀ n ≤ N, 0 ≤ e + ∑ m ∈ Finset.range n, (t (m + 1) - t m) * g m + n * σ ∧
      p n (Real.exp (Λ * (t n - t 0)) * (e + ∑ m ∈ Finset.range n, (t (m + 1) - t m) * g m + n * σ)) := by
  have htn : ∀ n ≤ N, 0 ≤ t n - t 0 := by
    intro n
    induction n with
    | zero => intro _; simp
    | succ n ih => intro hn; have := ih (by omega); have := ht n hn; linarith
  intro n
  induction n with
  | zero => intro _; simpa using ⟨he, h0⟩
  | succ n ih =>
    intro hn
    obtain ⟨ha0, ih⟩ := ih (by omega)
    have h1 := htn n (by omega)
    have h2 : 0 ≤ t (n + 1) - t n := sub_nonneg.mpr (ht n hn)
    have hgn := hg n hn
    set E := Real.exp (Λ * (t n - t 0)) with hE
    set a := e + ∑ m ∈ Finset.range n, (t (m + 1) - t m) * g m + n * σ with ha
    have he' : e + ∑ m ∈ Finset.range (n + 1), (t (m + 1) - t m) * g m + (n + 1 : ℕ) * σ = a + ((t (n + 1) - t n) * g n + σ) := by
      rw [Finset.sum_range_succ, ha]
      push_cast
      ring
    rw [he']
    refine ⟨by positivity, ?_⟩
    refine hmono _ _ _ ?_ (hp n hn _ (by positivity) ih)
    have h3 : Λ * (t (n + 1) - t n) + 1 ≤ Real.exp (Λ * (t (n + 1) - t n)) := Real.add_one_le_exp _
    have h4 : Real.exp (Λ * (t (n + 1) - t 0)) = E * Real.exp (Λ * (t (n + 1) - t n)) := by
      rw [hE, ← Real.exp_add]
      ring_nf
    have h5 : 1 ≤ Real.exp (Λ * (t (n + 1) - t 0)) := Real.one_le_exp (mul_nonneg hΛ (htn _ hn))
    have h6 : (E * a) * (Λ * (t (n + 1) - t n) + 1) ≤ Real.exp (Λ * (t (n + 1) - t 0)) * a := by
      rw [h4]
      nlinarith [mul_le_mul_of_nonneg_left h3 (by positivity : 0 ≤ E * a)]
    have h7 : (t (n + 1) - t n) * g n + σ ≤ Real.exp (Λ * (t (n + 1) - t 0)) * ((t (n + 1) - t n) * g n + σ) :=
      le_mul_of_one_le_left (by positivity) h5
    nlinarith

section
variable (fresh freshI : String → ℕ) (casadiPoints : ℕ → String → Except PyErr (List ℝ))
    (csFunction : List (MXExpr ℝ) → List (MXExpr ℝ) → Except PyErr (CsFn ℝ))
    (dae : DaeObj ℝ) (t : List ℝ) (order : ℕ) (method : String) (tdp_fun : Option (ℝ → Mat ℝ))
    (d : DaeObj ℝ) (xdot res : MXExpr ℝ) (tau : List ℝ) (F : CsFn ℝ) (rep : Bool) (s : Scheme ℝ)

/-- **C141** (scheme) Two assignments that solve the equations of a regular model up to the tolerances `tol₁` and `tol₂`, with initial states
that differ by `ε` and inputs and parameters that differ by `δ n` in the interval `n`: the states differ at most by a constant times `ε`
plus the integral of `δ`, plus what the tolerances contribute (C97). -/
theorem C141_scheme (hcs : IsCsFunction csFunction)
    (pre : SchemePre freshI casadiPoints csFunction dae t order method tdp_fun d xdot res tau F)
    (hs : Scheme.new fresh freshI casadiPoints csFunction dae t order method tdp_fun rep = .ok s)
    (hf : [fresh "x", fresh "K", fresh "Z", fresh "u", fresh "P"].Nodup)
    (L Lz G Gz Lu θ : ℝ) (reg : RegularDae d xdot res L Lz G Gz) (lu : LipschitzInData d xdot res Lu)
    (T : ButcherTableau ℝ) (hT : butcherTableuForCollocationPoints tau = .ok T) (α β H : ℝ)
    (hα : ∀ j < s.M, ∑ k ∈ Finset.range s.M, |T.A.e [j, k]| ≤ α) (hβ : ∑ k ∈ Finset.range s.M, |T.b.e [k]| ≤ β)
    (ht : ∀ n < s.N, nd t n ≤ nd t (n + 1) ∧ nd t (n + 1) - nd t n ≤ H) (hθ : θ < 1) (hstep : L * (H * α) ≤ θ)
    (env₁ env₂ : Env ℝ) (tol₁ tol₂ ε : ℝ) (h₁ : ∀ v ∈ s.eq.vals env₁, |v| ≤ tol₁) (h₂ : ∀ v ∈ s.eq.vals env₂, |v| ≤ tol₂)
    (htol : 0 ≤ tol₁ ∧ 0 ≤ tol₂) (δ : ℕ → ℝ) (hδ0 : ∀ n < s.N, 0 ≤ δ n)
    (hu : ∀ n < s.N, ∀ i < d.nu, |s.u.val env₁ i n - s.u.val env₂ i n| ≤ δ n)
    (hp : ∀ c < s.N * s.M, ∀ i < d.np, |s.p.val env₁ i (if rep then c else 0) - s.p.val env₂ i (if rep then c else 0)| ≤ δ (c / s.M))
    (hε : 0 ≤ ε) (h0 : ∀ i < d.nx, |s.x.val env₁ i 0 - s.x.val env₂ i 0| ≤ ε) :
    let tol := tol₁ + tol₂
    let r := fun n => tol + Lu * δ n
    let Λ := β * L / (1 - θ)
    let bound := fun n : ℕ => Real.exp (Λ * (nd t n - nd t 0)) *
      (ε + ∑ m ∈ Finset.range n, (nd t (m + 1) - nd t m) * (β * G / (1 - θ) * r m) + n * tol)
    (∀ n ≤ s.N, ∀ i < d.nx, |s.x.val env₁ i n - s.x.val env₂ i n| ≤ bound n) ∧
    ∀ n < s.N, ∀ j < s.M,
      (∀ i < d.nx, |s.Kd.val env₁ i (n * s.M + j) - s.Kd.val env₂ i (n * s.M + j)| ≤ (L * bound n + G * r n) / (1 - θ) ∧
        |s.X.val env₁ i (n * s.M + j) - s.X.val env₂ i (n * s.M + j)| ≤ (bound n + H * α * (G * r n)) / (1 - θ)) ∧
      ∀ k < d.nz, |s.Z.val env₁ k (n * s.M + j) - s.Z.val env₂ k (n * s.M + j)| ≤
        Lz * ((bound n + H * α * (G * r n)) / (1 - θ)) + Gz * r n := by
  intro tol r Λ bound
  have b := pre.built hs
  have hpos := pre.pos
  have hN := b.N_eq
  have hM := b.M_eq
  have hnp : d.np = d.p.rows := by simp [DaeObj.np, MXExpr.numel, pre.p]
  have h1θ : 0 < 1 - θ := by linarith
  obtain ⟨hL, hG⟩ := reg.nonneg
  have hLu := lu.nonneg
  have htol0 : 0 ≤ tol := add_nonneg htol.1 htol.2
  rw [hN] at ht hu hδ0
  rw [hN, hM] at hp
  have hr0 : ∀ n < t.length - 1, 0 ≤ r n := fun n hn => by
    have := hδ0 n hn
    simp only [r]; positivity
  rw [hN, hM]
  rw [hM] at hα hβ
  have hA : ∀ i j, T.A.e [i, j] = wA tau i j := by
    intro i j
    rw [butcher_ok] at hT; cases hT
    rfl
  have hB : ∀ k < order, T.b.e [k] = wb tau k := by
    intro k hk
    rw [butcher_ok] at hT; cases hT
    simp [NdArray.vec, nd, List.getD_eq_getElem?_getD, pre.len, hk, wb]
  simp only [hA] at hα
  rw [Finset.sum_congr rfl fun k hk => by rw [hB k (Finset.mem_range.mp hk)]] at hβ
  have hα0 : 0 ≤ α := (Finset.sum_nonneg fun _ _ => abs_nonneg _).trans (hα 0 hpos)
  have hβ0 : 0 ≤ β := (Finset.sum_nonneg fun _ _ => abs_nonneg _).trans hβ
  obtain ⟨r₁, c₁⟩ := Scheme.eq_tol pre b.toCore h₁
  obtain ⟨r₂, c₂⟩ := Scheme.eq_tol pre b.toCore h₂
  rw [pre.wf.nx] at h0 ⊢
  rw [pre.wf.nz]
  rw [pre.wf.nu] at hu
  rw [hnp] at hp
  simp only [b.x, b.Kd, b.Z, b.u, b.p, MXExpr.sym] at h0 hu hp ⊢
  obtain ⟨xu, xP, Ku, KP, Zu, ZP⟩ : fresh "x" ≠ fresh "u" ∧ fresh "x" ≠ fresh "P" ∧ fresh "K" ≠ fresh "u" ∧ fresh "K" ≠ fresh "P" ∧
      fresh "Z" ≠ fresh "u" ∧ fresh "Z" ≠ fresh "P" := by
    simp only [List.nodup_cons, List.mem_cons, List.not_mem_nil, or_false, not_or] at hf
    tauto
  -- the states of the second assignment with the inputs and parameters of the first
  let e0 : Env ℝ := fun id i c => if id = fresh "u" ∨ id = fresh "P" then env₁ id i c else env₂ id i c
  have ex : ∀ i c, e0 (fresh "x") i c = env₂ (fresh "x") i c := fun i c => by simp [e0, xu, xP]
  have eK : ∀ i c, e0 (fresh "K") i c = env₂ (fresh "K") i c := fun i c => by simp [e0, Ku, KP]
  have eZ : ∀ i c, e0 (fresh "Z") i c = env₂ (fresh "Z") i c := fun i c => by simp [e0, Zu, ZP]
  have eu : ∀ i c, e0 (fresh "u") i c = env₁ (fresh "u") i c := fun i c => by simp [e0]
  have eP : ∀ i c, e0 (fresh "P") i c = env₁ (fresh "P") i c := fun i c => by simp [e0]
  have eX : ∀ i n j, n < t.length - 1 → j < order → s.X.val e0 i (n * order + j) = s.X.val env₂ i (n * order + j) := by
    intro i n j hn hj
    rw [b.X _ i n j hn hj, b.X _ i n j hn hj, ex]
    simp only [eK]
  -- one point
  have point : ∀ n j, n < t.length - 1 → j < order → ∀ η, 0 ≤ η →
      (∀ i < d.x.rows, |s.X.val env₁ i (n * order + j) - s.X.val env₂ i (n * order + j)| ≤ η) →
      (∀ i < d.x.rows, |env₁ (fresh "K") i (n * order + j) - env₂ (fresh "K") i (n * order + j)| ≤ L * η + G * r n) ∧
      ∀ k < d.z.rows, |env₁ (fresh "Z") k (n * order + j) - env₂ (fresh "Z") k (n * order + j)| ≤ Lz * η + Gz * r n := by
    intro n j hn hj η hη0 hη
    have hc := block_lt hn hj
    obtain ⟨e₁, a₁⟩ := exists_atPoint hcs pre b.toCore env₁ hc
    obtain ⟨e₂, a₂⟩ := exists_atPoint hcs pre b.toCore env₂ hc
    obtain ⟨e₃, a₃⟩ := exists_atPoint hcs pre b.toCore e0 hc
    have v₁ := a₁.vals pre b.toCore
    have v₂ := a₂.vals pre b.toCore
    have v₃ := a₃.vals pre b.toCore
    rw [div_block hj] at v₁ v₂ v₃
    have hdata := lu.lip e₃ e₂ (fun i hi => by rw [v₃.xdot i hi, v₂.xdot i hi, eK]) (fun i hi => by rw [v₃.x i hi, v₂.x i hi, eX i n j hn hj])
      (fun i hi => by rw [v₃.z i hi, v₂.z i hi, eZ]) (by rw [v₃.t, v₂.t]) (fun i hi l hl => by rw [v₃.tdp i hi l hl, v₂.tdp i hi l hl]) (δ n)
      (fun i hi => by rw [v₃.u i hi, v₂.u i hi, eu]; exact hu n hn i hi)
      (fun i hi => by
        rw [v₃.p i hi, v₂.p i hi, eP]
        have := hp _ hc i hi
        rwa [div_block hj] at this)
    obtain ⟨q1, q2⟩ := reg.regular e₁ e₃ (fun i hi => by rw [v₁.u i hi, v₃.u i hi, eu])
      (fun i hi => by rw [v₁.p i hi, v₃.p i hi, eP]) (by rw [v₁.t, v₃.t]) (fun i hi l hl => by rw [v₁.tdp i hi l hl, v₃.tdp i hi l hl]) η (r n)
      hη0 (hr0 n hn) (fun i hi => by rw [v₁.x i hi, v₃.x i hi, eX i n j hn hj]; exact hη i hi) (fun i hi => by
        have k1 := r₁ _ hc i hi
        have k2 := r₂ _ hc i hi
        have k3 := hdata i hi
        rw [(a₁.out hcs pre b.toCore hc).1 i hi] at k1
        rw [(a₂.out hcs pre b.toCore hc).1 i hi] at k2
        rw [abs_le] at k1 k2 k3 ⊢
        simp only [r, tol]
        constructor <;> linarith)
    refine ⟨fun i hi => ?_, fun k hk => ?_⟩
    · have := q1 i hi
      rwa [v₁.xdot i hi, v₃.xdot i hi, eK] at this
    · have := q2 k hk
      rwa [v₁.z k hk, v₃.z k hk, eZ] at this
  -- one interval
  have interval : ∀ n < t.length - 1, ∀ a, 0 ≤ a → (∀ i < d.x.rows, |env₁ (fresh "x") i n - env₂ (fresh "x") i n| ≤ a) →
      ∀ j < order, ∀ i < d.x.rows, |env₁ (fresh "K") i (n * order + j) - env₂ (fresh "K") i (n * order + j)| ≤ (L * a + G * r n) / (1 - θ) ∧
        |s.X.val env₁ i (n * order + j) - s.X.val env₂ i (n * order + j)| ≤ (a + H * α * (G * r n)) / (1 - θ) := by
    intro n hn a ha hxa j hj i hi
    have := interval_inexact d.x.rows order (wA tau) (nd t (n + 1) - nd t n) H α L θ (G * r n) a
      ⟨sub_nonneg.mpr (ht n hn).1, (ht n hn).2⟩ hL (mul_nonneg hG (hr0 n hn)) ha hα0 hα hθ hstep (fun i => env₁ (fresh "x") i n)
      (fun i => env₂ (fresh "x") i n) (fun i l => env₁ (fresh "K") i (n * order + l)) (fun i l => env₂ (fresh "K") i (n * order + l)) hxa
      (fun j hj δ hδ0 hδ => (point n j hn hj δ hδ0 (fun i hi => by
        rw [b.X env₁ i n j hn hj, b.X env₂ i n j hn hj]
        exact hδ i hi)).1) j hj i hi
    rw [b.X env₁ i n j hn hj, b.X env₂ i n j hn hj]
    exact this
  have hg0 : ∀ n < t.length - 1, 0 ≤ β * G / (1 - θ) * r n := fun n hn => mul_nonneg (by positivity) (hr0 n hn)
  have hbnd' := gronwall_sum (nd t) (t.length - 1) (fun n hn => (ht n hn).1) Λ tol (fun n => β * G / (1 - θ) * r n) (by positivity) hg0
      htol0 ε (fun n a => ∀ i < d.x.rows, |env₁ (fresh "x") i n - env₂ (fresh "x") i n| ≤ a) h0 (by
    intro n hn a ha hxa i hi
    have hk := interval n hn a ha hxa
    have e₁ := c₁ n hn i hi
    have e₂ := c₂ n hn i hi
    rw [b.cont _ i n hn] at e₁ e₂
    have hrn := hr0 n hn
    set σ₁ := env₁ (fresh "x") i n + (nd t (n + 1) - nd t n) * ∑ l ∈ Finset.range order, env₁ (fresh "K") i (n * order + l) * wb tau l
    set σ₂ := env₂ (fresh "x") i n + (nd t (n + 1) - nd t n) * ∑ l ∈ Finset.range order, env₂ (fresh "K") i (n * order + l) * wb tau l
    have hsum : |∑ l ∈ Finset.range order, (env₁ (fresh "K") i (n * order + l) - env₂ (fresh "K") i (n * order + l)) * wb tau l| ≤
        (L * a + G * r n) / (1 - θ) * β := by
      refine (Finset.abs_sum_le_sum_abs _ _).trans ?_
      refine le_trans ?_ (mul_le_mul_of_nonneg_left hβ (by positivity))
      rw [Finset.mul_sum]
      refine Finset.sum_le_sum fun l hl => ?_
      rw [abs_mul]
      exact mul_le_mul_of_nonneg_right (hk l (Finset.mem_range.mp hl) i hi).1 (abs_nonneg _)
    have hh := sub_nonneg.mpr (ht n hn).1
    have hσ : |σ₁ - σ₂| ≤ a + (nd t (n + 1) - nd t n) * ((L * a + G * r n) / (1 - θ) * β) := by
      have : σ₁ - σ₂ = (env₁ (fresh "x") i n - env₂ (fresh "x") i n) + (nd t (n + 1) - nd t n) *
          ∑ l ∈ Finset.range order, (env₁ (fresh "K") i (n * order + l) - env₂ (fresh "K") i (n * order + l)) * wb tau l := by
        simp only [σ₁, σ₂, sub_mul, Finset.sum_sub_distrib]
        ring
      rw [this]
      refine (abs_add_le _ _).trans (add_le_add (hxa i hi) ?_)
      rw [abs_mul, abs_of_nonneg hh]
      exact mul_le_mul_of_nonneg_left hsum hh
    have h3 : env₁ (fresh "x") i (n + 1) - env₂ (fresh "x") i (n + 1) =
        (σ₁ - σ₂) - (σ₁ - env₁ (fresh "x") i (n + 1)) + (σ₂ - env₂ (fresh "x") i (n + 1)) := by ring
    rw [h3]
    have h4 := abs_add_le ((σ₁ - σ₂) - (σ₁ - env₁ (fresh "x") i (n + 1))) (σ₂ - env₂ (fresh "x") i (n + 1))
    have h5 := abs_sub (σ₁ - σ₂) (σ₁ - env₁ (fresh "x") i (n + 1))
    have h6 : (nd t (n + 1) - nd t n) * ((L * a + G * r n) / (1 - θ) * β) =
        (nd t (n + 1) - nd t n) * (Λ * a + β * G / (1 - θ) * r n) := by
      simp only [Λ]
      field_simp
    have h7 : tol = tol₁ + tol₂ := rfl
    linarith)
      (fun n a a' haa h i hi => (h i hi).trans haa) hε
  have hbnd := fun n hn => (hbnd' n hn).2
  have hb0 : ∀ n ≤ t.length - 1, 0 ≤ bound n := fun n hn => mul_nonneg (Real.exp_pos _).le (hbnd' n hn).1
  refine ⟨hbnd, fun n hn j hj => ?_⟩
  have hi := interval n hn (bound n) (hb0 n hn.le) (hbnd n hn.le) j hj
  refine ⟨hi, fun k hk => ?_⟩
  refine (point n j hn hj ((bound n + H * α * (G * r n)) / (1 - θ)) ?_ (fun i hi' => (hi i hi').2)).2 k hk
  have := hb0 n hn.le
  have hH : 0 ≤ H := by
    have := ht n hn
    linarith [this.1, this.2]
  have := hr0 n hn
  positivity

/-- **C141** (quadratures) If, in the interval `n`, the states at the collocation points differ at most by `EX n`, the algebraic states by
`EZ n` and the inputs and parameters by `δ n`: the quadratures differ at most by the integral of a combination of these. -/
theorem C141_quadrature (hcs : IsCsFunction csFunction)
    (pre : SchemePre freshI casadiPoints csFunction dae t order method tdp_fun d xdot res tau F)
    (hs : Scheme.new fresh freshI casadiPoints csFunction dae t order method tdp_fun rep = .ok s)
    (hf : [fresh "x", fresh "K", fresh "Z", fresh "u", fresh "P"].Nodup) (Lq Lqz Lqu : ℝ) (lip : LipschitzQuadZ d Lq Lqz)
    (lu : LipschitzInData d xdot d.quad Lqu) (T : ButcherTableau ℝ) (hT : butcherTableuForCollocationPoints tau = .ok T) (β : ℝ)
    (hβ : ∑ k ∈ Finset.range s.M, |T.b.e [k]| ≤ β) (ht : ∀ n < s.N, nd t n ≤ nd t (n + 1)) (env₁ env₂ : Env ℝ) (δ EX EZ : ℕ → ℝ)
    (hu : ∀ n < s.N, ∀ i < d.nu, |s.u.val env₁ i n - s.u.val env₂ i n| ≤ δ n)
    (hp : ∀ c < s.N * s.M, ∀ i < d.np, |s.p.val env₁ i (if rep then c else 0) - s.p.val env₂ i (if rep then c else 0)| ≤ δ (c / s.M))
    (hX : ∀ n < s.N, ∀ j < s.M, ∀ i < d.nx, |s.X.val env₁ i (n * s.M + j) - s.X.val env₂ i (n * s.M + j)| ≤ EX n)
    (hZ : ∀ n < s.N, ∀ j < s.M, ∀ k < d.nz, |s.Z.val env₁ k (n * s.M + j) - s.Z.val env₂ k (n * s.M + j)| ≤ EZ n) :
    ∀ n ≤ s.N, ∀ k < d.nq, |s.q.val env₁ k n - s.q.val env₂ k n| ≤
      ∑ m ∈ Finset.range n, (nd t (m + 1) - nd t m) * (β * (Lq * EX m + Lqz * EZ m + Lqu * δ m)) := by
  have b := pre.built hs
  have hpos := pre.pos
  have hN := b.N_eq
  have hM := b.M_eq
  have hnp : d.np = d.p.rows := by simp [DaeObj.np, MXExpr.numel, pre.p]
  have hnq : d.nq = d.quad.rows := by simp [DaeObj.nq, MXExpr.numel, pre.quad]
  rw [hN] at ht hu
  rw [hN, hM] at hp hX hZ
  rw [hN]
  rw [hM] at hβ
  have hB : ∀ k < order, T.b.e [k] = wb tau k := by
    intro k hk
    rw [butcher_ok] at hT; cases hT
    simp [NdArray.vec, nd, List.getD_eq_getElem?_getD, pre.len, hk, wb]
  rw [Finset.sum_congr rfl fun k hk => by rw [hB k (Finset.mem_range.mp hk)]] at hβ
  rw [pre.wf.nx] at hX
  rw [pre.wf.nz] at hZ
  rw [pre.wf.nu] at hu
  rw [hnp] at hp
  simp only [b.Z, b.u, b.p, MXExpr.sym] at hu hp hZ
  obtain ⟨xu, xP, Ku, KP, Zu, ZP⟩ : fresh "x" ≠ fresh "u" ∧ fresh "x" ≠ fresh "P" ∧ fresh "K" ≠ fresh "u" ∧ fresh "K" ≠ fresh "P" ∧
      fresh "Z" ≠ fresh "u" ∧ fresh "Z" ≠ fresh "P" := by
    simp only [List.nodup_cons, List.mem_cons, List.not_mem_nil, or_false, not_or] at hf
    tauto
  let e0 : Env ℝ := fun id i c => if id = fresh "u" ∨ id = fresh "P" then env₁ id i c else env₂ id i c
  have ex : ∀ i c, e0 (fresh "x") i c = env₂ (fresh "x") i c := fun i c => by simp [e0, xu, xP]
  have eK : ∀ i c, e0 (fresh "K") i c = env₂ (fresh "K") i c := fun i c => by simp [e0, Ku, KP]
  have eZ : ∀ i c, e0 (fresh "Z") i c = env₂ (fresh "Z") i c := fun i c => by simp [e0, Zu, ZP]
  have eu : ∀ i c, e0 (fresh "u") i c = env₁ (fresh "u") i c := fun i c => by simp [e0]
  have eP : ∀ i c, e0 (fresh "P") i c = env₁ (fresh "P") i c := fun i c => by simp [e0]
  have eX : ∀ i n j, n < t.length - 1 → j < order → s.X.val e0 i (n * order + j) = s.X.val env₂ i (n * order + j) := by
    intro i n j hn hj
    rw [b.X _ i n j hn hj, b.X _ i n j hn hj, ex]
    simp only [eK]
  have point : ∀ n < t.length - 1, ∀ j < order, ∀ k < d.nq, |s.quad.val env₁ k (n * order + j) - s.quad.val env₂ k (n * order + j)| ≤
      Lq * EX n + Lqz * EZ n + Lqu * δ n := by
    intro n hn j hj k hk
    have hk' : k < d.quad.rows := by rw [← hnq]; exact hk
    have hc := block_lt hn hj
    obtain ⟨e₁, a₁⟩ := exists_atPoint hcs pre b.toCore env₁ hc
    obtain ⟨e₂, a₂⟩ := exists_atPoint hcs pre b.toCore env₂ hc
    obtain ⟨e₃, a₃⟩ := exists_atPoint hcs pre b.toCore e0 hc
    have v₁ := a₁.vals pre b.toCore
    have v₂ := a₂.vals pre b.toCore
    have v₃ := a₃.vals pre b.toCore
    rw [div_block hj] at v₁ v₂ v₃
    have hdata := lu.lip e₃ e₂ (fun i hi => by rw [v₃.xdot i hi, v₂.xdot i hi, eK]) (fun i hi => by rw [v₃.x i hi, v₂.x i hi, eX i n j hn hj])
      (fun i hi => by rw [v₃.z i hi, v₂.z i hi, eZ]) (by rw [v₃.t, v₂.t]) (fun i hi l hl => by rw [v₃.tdp i hi l hl, v₂.tdp i hi l hl]) (δ n)
      (fun i hi => by rw [v₃.u i hi, v₂.u i hi, eu]; exact hu n hn i hi)
      (fun i hi => by
        rw [v₃.p i hi, v₂.p i hi, eP]
        have := hp _ hc i hi
        rwa [div_block hj] at this) k hk'
    have hlip := lip e₁ e₃ (fun i hi => by rw [v₁.u i hi, v₃.u i hi, eu]) (fun i hi => by rw [v₁.p i hi, v₃.p i hi, eP]) (by rw [v₁.t, v₃.t])
      (fun i hi l hl => by rw [v₁.tdp i hi l hl, v₃.tdp i hi l hl]) (EX n) (EZ n) (fun i hi => by
        rw [pre.wf.nx] at hi
        rw [v₁.x i hi, v₃.x i hi, eX i n j hn hj]
        exact hX n hn j hj i hi) (fun l hl => by
        rw [pre.wf.nz] at hl
        rw [v₁.z l hl, v₃.z l hl, eZ]
        exact hZ n hn j hj l hl) k hk
    rw [(a₁.out hcs pre b.toCore hc).2 k hk', (a₂.out hcs pre b.toCore hc).2 k hk']
    calc |d.quad.val e₁ k 0 - d.quad.val e₂ k 0| = |(d.quad.val e₁ k 0 - d.quad.val e₃ k 0) + (d.quad.val e₃ k 0 - d.quad.val e₂ k 0)| := by
          ring_nf
      _ ≤ _ := (abs_add_le _ _).trans (add_le_add hlip hdata)
  intro n
  induction n with
  | zero =>
    intro _ k _
    rw [b.q_zero, b.q_zero]
    simp
  | succ n ih =>
    intro hn k hk
    have hh := sub_nonneg.mpr (ht n (by omega))
    rw [b.q _ _ _ (by omega), b.q _ _ _ (by omega), Finset.sum_range_succ]
    have h1 := ih (by omega) k hk
    have h0 : 0 ≤ Lq * EX n + Lqz * EZ n + Lqu * δ n := (abs_nonneg _).trans (point n (by omega) 0 hpos k hk)
    have h2 : |∑ j ∈ Finset.range order, s.quad.val env₁ k (n * order + j) * wb tau j -
        ∑ j ∈ Finset.range order, s.quad.val env₂ k (n * order + j) * wb tau j| ≤ β * (Lq * EX n + Lqz * EZ n + Lqu * δ n) := by
      rw [← Finset.sum_sub_distrib]
      refine (Finset.abs_sum_le_sum_abs _ _).trans ?_
      refine le_trans ?_ (mul_le_mul_of_nonneg_right hβ h0)
      rw [Finset.sum_mul]
      refine Finset.sum_le_sum fun j hj => ?_
      rw [← sub_mul, abs_mul, mul_comm]
      exact mul_le_mul_of_nonneg_left (point n (by omega) j (Finset.mem_range.mp hj) k hk) (abs_nonneg _)
    rw [show ∀ a b c S S' : ℝ, a + c * S - (b + c * S') = (a - b) + c * (S - S') from fun _ _ _ _ _ => by ring]
    refine (abs_add_le _ _).trans (add_le_add h1 ?_)
    rw [abs_mul, abs_of_nonneg hh]
    exact mul_le_mul_of_nonneg_left h2 hh

/-- **C141** (integrator) Two calls of the integrator of a regular model, with small steps and a root finder that solves the equations up to
the tolerance `tol`: if the initial states differ by `ε` and the inputs and parameters by `δ n` in the interval `n`, then the states
differ at most by a constant times `ε + 2 tol` plus the integral of `δ` (and what the tolerance contributes). -/
theorem C141_integrator (hcs : IsCsFunction csFunction)
    (pre : SchemePre freshI casadiPoints csFunction dae t order method tdp_fun d xdot res tau F)
    (hfr : DistinctSyms fresh) (hpq : dae.np = 0 ∨ dae.nq = 0) (L Lz G Gz Lu θ : ℝ) (reg : RegularDae d xdot res L Lz G Gz)
    (lu : LipschitzInData d xdot res Lu) (T : ButcherTableau ℝ) (hT : butcherTableuForCollocationPoints tau = .ok T) (α β H : ℝ)
    (hα : ∀ j < order, ∑ k ∈ Finset.range order, |T.A.e [j, k]| ≤ α) (hβ : ∑ k ∈ Finset.range order, |T.b.e [k]| ≤ β)
    (ht : ∀ n < t.length - 1, nd t n ≤ nd t (n + 1) ∧ nd t (n + 1) - nd t n ≤ H) (hθ : θ < 1) (hstep : L * (H * α) ≤ θ)
    (rootfinder : (List ℝ → List ℝ) → List ℝ → Except PyErr (List ℝ)) (tol : ℝ) (htol : 0 ≤ tol)
    (hrf : ∀ f w0 sol, rootfinder f w0 = .ok sol → ∀ v ∈ f sol, |v| ≤ tol) :
    ∃ g, Integrator.new fresh freshI casadiPoints csFunction dae t order method tdp_fun = .ok g ∧
      ∀ x0 z0 u p out x0' z0' u' p' out', g.call rootfinder x0 z0 u p = .ok out → g.call rootfinder x0' z0' u' p' = .ok out' →
      ∀ (ε : ℝ) (δ : ℕ → ℝ), 0 ≤ ε → (∀ n < t.length - 1, 0 ≤ δ n) → (∀ i < d.nx, |x0.e i 0 - x0'.e i 0| ≤ ε) →
      (∀ n < t.length - 1, ∀ i < d.nu, |u.e i n - u'.e i n| ≤ δ n) → (∀ n < t.length - 1, ∀ i < d.np, |p.e i 0 - p'.e i 0| ≤ δ n) →
      let bound := fun n : ℕ => Real.exp (β * L / (1 - θ) * (nd t n - nd t 0)) * (ε + 2 * tol +
        ∑ m ∈ Finset.range n, (nd t (m + 1) - nd t m) * (β * G / (1 - θ) * (2 * tol + Lu * δ m)) + n * (2 * tol))
      (∀ n < t.length, ∀ i < d.nx, |out.x.e i n - out'.x.e i n| ≤ bound n) ∧
      ∀ n < t.length - 1, ∀ i < d.nx, |out.xf.e i n - out'.xf.e i n| ≤ bound (n + 1) := by
  obtain ⟨s, x1, hs, -, hx1v, hnew⟩ := integrator_new fresh freshI casadiPoints csFunction dae t order method tdp_fun d xdot res tau F
    pre
  rw [if_neg (by omega)] at hnew
  have b := pre.built hs
  obtain ⟨px, -⟩ := makeImplicit_parts pre.impl
  have hnx : dae.nx = d.nx := by simp [DaeObj.nx, px]
  have hf : [fresh "x", fresh "K", fresh "Z", fresh "u", fresh "P"].Nodup := by
    simp [hfr.xK, hfr.xZ, hfr.xu, hfr.xP, hfr.KZ, hfr.Ku, hfr.KP, hfr.Zu, hfr.ZP, hfr.uP]
  have htwo := pre.two
  have hpos := pre.pos
  refine ⟨_, hnew, ?_⟩
  intro x0 z0 u p out x0' z0' u' p' out' hout hout' ε δ hε hδ h0 hu hp bound
  unfold Integrator.call at hout hout'
  simp only [bind, Except.bind] at hout hout'
  split at hout
  · cases hout
  rename_i sol hsol
  split at hout'
  · cases hout'
  rename_i sol' hsol'
  have hroot := hrf _ _ _ hsol
  have hroot' := hrf _ _ _ hsol'
  have hout := Except.ok.inj hout
  have hout' := Except.ok.inj hout'
  have hU : ∀ sol u p, s.u.val (Integrator.envOf fresh s sol u p) = u.e := fun sol u p => by
    rw [b.u]
    show Integrator.envOf fresh s sol u p (fresh "u") = _
    unfold Integrator.envOf
    rw [if_neg hfr.xu.symm, if_neg hfr.Ku.symm, if_neg hfr.Zu.symm, if_pos rfl]
  have hP : ∀ sol u p, s.p.val (Integrator.envOf fresh s sol u p) = p.e := fun sol u p => by
    rw [b.p]
    show Integrator.envOf fresh s sol u p (fresh "P") = _
    unfold Integrator.envOf
    rw [if_neg hfr.xP.symm, if_neg hfr.KP.symm, if_neg hfr.ZP.symm, if_neg hfr.uP.symm, if_pos rfl]
  have hinit : ∀ i < d.nx, |s.x.val (Integrator.envOf fresh s sol u p) i 0 - x0.e i 0| ≤ tol := by
    intro i hi
    have := hroot (x1.val (Integrator.envOf fresh s sol u p) i 0 - x0.e i 0)
      (List.mem_append_right _ (List.mem_map.mpr ⟨i, List.mem_range.mpr (by omega), rfl⟩))
    rwa [hx1v] at this
  have hinit' : ∀ i < d.nx, |s.x.val (Integrator.envOf fresh s sol' u' p') i 0 - x0'.e i 0| ≤ tol := by
    intro i hi
    have := hroot' (x1.val (Integrator.envOf fresh s sol' u' p') i 0 - x0'.e i 0)
      (List.mem_append_right _ (List.mem_map.mpr ⟨i, List.mem_range.mpr (by omega), rfl⟩))
    rwa [hx1v] at this
  have key := (C141_scheme fresh freshI casadiPoints csFunction dae t order method tdp_fun d xdot res tau F false s hcs pre hs hf L Lz G Gz Lu θ
    reg lu T hT α β H (by rw [b.M_eq]; exact hα) (by rw [b.M_eq]; exact hβ) (by rw [b.N_eq]; exact ht) hθ hstep
    (Integrator.envOf fresh s sol u p) (Integrator.envOf fresh s sol' u' p') tol tol (ε + 2 * tol)
    (fun v hv => hroot v (List.mem_append_left _ hv)) (fun v hv => hroot' v (List.mem_append_left _ hv)) ⟨htol, htol⟩ δ
    (by rw [b.N_eq]; exact hδ) (by rw [b.N_eq, hU, hU]; exact hu) (fun c hc i hi => by
      rw [hP, hP]
      refine hp _ ?_ i hi
      rw [b.N_eq, b.M_eq] at hc
      rw [b.M_eq]
      exact Nat.div_lt_of_lt_mul (by rwa [Nat.mul_comm])) (by positivity) (fun i hi => by
      have k1 := abs_le.mp (hinit i hi)
      have k2 := abs_le.mp (hinit' i hi)
      have k3 := abs_le.mp (h0 i hi)
      rw [abs_le]
      constructor <;> linarith)).1
  rw [b.N_eq] at key
  simp only [← two_mul] at key
  refine ⟨fun n hn i hi => ?_, fun n hn i hi => ?_⟩
  · rw [← hout, ← hout']
    exact key n (by omega) i hi
  · rw [← hout, ← hout']
    exact key (n + 1) (by omega) i hi

end

/-- The right-hand side `u - x`. -/
def driveF : Env ℝ → ℕ → ℝ := fun env _ => env 2 0 0 - env 0 0 0

theorem drive_regular (freshI : String → ℕ) (q : ℕ) (g : Env ℝ → ℕ → ℝ) : RegularDae (odeUD freshI 1 1 0 q driveF g) (.sym (freshI "xdot") 1)
    (odeRes freshI 1 driveF) 1 0 1 0 ∧ LipschitzInData (odeUD freshI 1 1 0 q driveF g) (.sym (freshI "xdot") 1)
    (odeRes freshI 1 driveF) 1 := by
  have hval : ∀ e : Env ℝ, ∀ i < 1, (odeRes freshI 1 driveF).val e i 0 = e (freshI "xdot") i 0 - (e 2 0 0 - e 0 0 0) := by
    intro e i hi
    simp only [odeRes, hi, if_true, driveF]
  refine ⟨⟨⟨zero_le_one, zero_le_one⟩, fun e e' hu _ _ _ δ ρ _ _ hx hr => ⟨fun i hi => ?_, fun k hk => absurd hk (Nat.not_lt_zero _)⟩⟩,
    zero_le_one, fun e e' hk hx _ _ _ δ hu _ i hi => ?_⟩
  · have h1 := hr i hi
    rw [hval _ i hi, hval _ i hi] at h1
    have h2 : e 2 0 0 = e' 2 0 0 := hu 0 Nat.one_pos
    have h3 : |e 0 0 0 - e' 0 0 0| ≤ δ := hx 0 Nat.one_pos
    change |e (freshI "xdot") i 0 - e' (freshI "xdot") i 0| ≤ _
    rw [h2] at h1
    rw [abs_le] at h1 h3 ⊢
    constructor <;> linarith
  · have h1 : e (freshI "xdot") i 0 = e' (freshI "xdot") i 0 := hk i hi
    have h2 : e 0 0 0 = e' 0 0 0 := hx 0 Nat.one_pos
    have h3 : |e 2 0 0 - e' 2 0 0| ≤ δ := hu 0 Nat.one_pos
    rw [hval _ i hi, hval _ i hi, h1, h2]
    rw [abs_le] at h3 ⊢
    constructor <;> linarith

/-- `x' = u - x` with the midpoint rule and steps of at most 1: if two inputs differ only in the last interval, by at most 1, the final
states differ at most by the length of this interval times `2 exp(2 T)`. -/
example (freshI : String → ℕ) (hI : 6 ≤ freshI "xdot") (t : List ℝ) (two : 2 ≤ t.length)
    (ht : ∀ n < t.length - 1, nd t n ≤ nd t (n + 1) ∧ nd t (n + 1) - nd t n ≤ 1) (rootfinder) (hrf : IsRootfinder rootfinder) : ∃ g,
    Integrator.new exFresh freshI (fun _ _ => .ok [1 / 2]) idealCsFunction (odeUO 1 1 0 0 driveF fun _ _ => 0) t 1 "legendre" none = .ok g ∧
    ∀ (x0 z0 u p : Mat ℝ) out (u' : Mat ℝ) out', g.call rootfinder x0 z0 u p = .ok out → g.call rootfinder x0 z0 u' p = .ok out' →
      (∀ n < t.length - 2, u.e 0 n = u'.e 0 n) → |u.e 0 (t.length - 2) - u'.e 0 (t.length - 2)| ≤ 1 →
      |out.x.e 0 (t.length - 1) - out'.x.e 0 (t.length - 1)| ≤
        Real.exp (2 * (nd t (t.length - 1) - nd t 0)) * (2 * (nd t (t.length - 1) - nd t (t.length - 2))) := by
  obtain ⟨F, pre⟩ := odeU_pre freshI hI 1 1 0 0 driveF (fun _ _ => 0) (fun e e' hx hu hp ht => ⟨fun i hi => by
    simp [driveF, hx 0 Nat.one_pos, hu 0 Nat.one_pos], fun _ _ => rfl⟩) rfl t [1 / 2] two (by simp)
  have pre : SchemePre freshI (fun _ _ => .ok [1 / 2]) idealCsFunction (odeUO 1 1 0 0 driveF fun _ _ => 0) t 1 "legendre" none
    (odeUD freshI 1 1 0 0 driveF fun _ _ => 0) (.sym (freshI "xdot") 1) (odeRes freshI 1 driveF) [1 / 2] F := pre
  obtain ⟨T, hT, hA, hB, -⟩ := C09_butcher_consistent ([1 / 2] : List ℝ) (by simp) (by simp)
  obtain ⟨T', hT', -, -, -, hc, -⟩ := C08_butcher_exact ([1 / 2] : List ℝ) (by simp)
  rw [hT] at hT'
  cases hT'
  have hA0 : T.A.e [0, 0] = 1 / 2 := by
    have := hA 0 (by simp)
    rw [hc 0 (by simp)] at this
    simpa using this
  have hB0 : T.b.e [0] = 1 := by simpa using hB
  obtain ⟨reg, lu⟩ := drive_regular freshI 0 fun _ _ => 0
  obtain ⟨g, hg, key⟩ := C141_integrator exFresh freshI _ _ _ _ _ _ _ _ _ _ _ _ idealCsFunction_spec pre (by constructor <;> decide) (.inl rfl) 1 0 1 0 1 (1 / 2)
    reg lu T hT (1 / 2) 1 1 (fun j hj => by
      obtain rfl : j = 0 := by omega
      simp [hA0]) (by simp [hB0]) ht (by norm_num) (by norm_num) rootfinder 0 le_rfl
    (fun f w0 sol h v hv => by rw [(hrf f w0 sol h).2 v hv, abs_zero])
  refine ⟨g, hg, fun x0 z0 u p out u' out' ho ho' heq hlast => ?_⟩
  obtain ⟨m, hm⟩ : ∃ m, t.length = m + 2 := ⟨t.length - 2, by omega⟩
  rw [hm] at heq hlast ⊢
  simp only [Nat.add_sub_cancel, show m + 2 - 1 = m + 1 by omega] at heq hlast ⊢
  have k := (key x0 z0 u p out x0 z0 u' p out' ho ho' 0 (fun n => if n = m then 1 else 0) le_rfl
    (fun n _ => by split_ifs <;> norm_num) (fun i _ => by simp) (fun n hn i hi => by
      change i < 1 at hi
      obtain rfl : i = 0 := by omega
      split_ifs with h
      · rw [h]; exact hlast
      · rw [heq n (by omega), sub_self, abs_zero]) (fun n hn i hi => absurd hi (Nat.not_lt_zero _))).1 (m + 1) (by omega) 0 Nat.one_pos
  refine k.trans (le_of_eq ?_)
  simp only [mul_zero, add_zero, zero_add, one_mul]
  rw [Finset.sum_range_succ, Finset.sum_eq_zero fun i hi => by rw [if_neg (by have := Finset.mem_range.mp hi; omega)]; ring]
  norm_num
  ring

/-- `x' = u - x` with the quadrature of `x + u`, one step of the midpoint rule from 0 to 1: solutions with the same initial state and inputs
that differ by `δ` have quadratures that differ at most by `2 δ`. -/
example (freshI : String → ℕ) (hI : 6 ≤ freshI "xdot") : ∃ s,
    Scheme.new exFresh freshI (fun _ _ => .ok [1 / 2]) idealCsFunction (odeUO 1 1 0 1 driveF fun e _ => e 0 0 0 + e 2 0 0) [0, 1] 1 "legendre"
      none = .ok s ∧
    ∀ (env₁ env₂ : Env ℝ) (δ : ℝ), (∀ v ∈ s.eq.vals env₁, v = 0) → (∀ v ∈ s.eq.vals env₂, v = 0) → s.x.val env₁ 0 0 = s.x.val env₂ 0 0 →
      |s.u.val env₁ 0 0 - s.u.val env₂ 0 0| ≤ δ → |s.q.val env₁ 0 1 - s.q.val env₂ 0 1| ≤ 2 * δ := by
  obtain ⟨F, pre⟩ := odeU_pre freshI hI 1 1 0 1 driveF (fun e _ => e 0 0 0 + e 2 0 0) (fun e e' hx hu hp ht => ⟨fun i hi => by
    simp [driveF, hx 0 Nat.one_pos, hu 0 Nat.one_pos], fun _ _ => by rw [hx 0 Nat.one_pos, hu 0 Nat.one_pos]⟩) rfl [0, 1] [1 / 2] (by simp)
    (by simp)
  have pre : SchemePre freshI (fun _ _ => .ok [1 / 2]) idealCsFunction (odeUO 1 1 0 1 driveF fun e _ => e 0 0 0 + e 2 0 0) [0, 1] 1 "legendre"
    none (odeUD freshI 1 1 0 1 driveF fun e _ => e 0 0 0 + e 2 0 0) (.sym (freshI "xdot") 1) (odeRes freshI 1 driveF) [1 / 2] F := pre
  obtain ⟨s, hs⟩ := C26_constructed exFresh freshI _ _ _ _ _ _ _ _ _ _ _ _ false pre
  have b := pre.built hs
  have hN : s.N = 1 := b.N_eq
  have hM : s.M = 1 := b.M_eq
  obtain ⟨T, hT, hA, hB, -⟩ := C09_butcher_consistent ([1 / 2] : List ℝ) (by simp) (by simp)
  obtain ⟨T', hT', -, -, -, hc, -⟩ := C08_butcher_exact ([1 / 2] : List ℝ) (by simp)
  rw [hT] at hT'
  cases hT'
  have hA0 : T.A.e [0, 0] = 1 / 2 := by
    have := hA 0 (by simp)
    rw [hc 0 (by simp)] at this
    simpa using this
  have hB0 : T.b.e [0] = 1 := by simpa using hB
  obtain ⟨reg, lu⟩ := drive_regular freshI 1 fun e _ => e 0 0 0 + e 2 0 0
  refine ⟨s, hs, fun env₁ env₂ δ h₁ h₂ h0 hu => ?_⟩
  have hδ : 0 ≤ δ := (abs_nonneg _).trans hu
  have hu' : ∀ n < s.N, ∀ i < 1, |s.u.val env₁ i n - s.u.val env₂ i n| ≤ δ := fun n hn i hi => by
    obtain rfl : n = 0 := by omega
    obtain rfl : i = 0 := by omega
    exact hu
  obtain ⟨-, k⟩ := C141_scheme exFresh freshI _ _ _ _ _ _ _ _ _ _ _ _ false s idealCsFunction_spec pre hs (by decide) 1 0 1 0 1 (1 / 2) reg lu T hT
    (1 / 2) 1 1 (fun j hj => by
      rw [hM] at hj ⊢
      obtain rfl : j = 0 := by omega
      simp [hA0]) (by rw [hM]; simp [hB0]) (fun n hn => by
      obtain rfl : n = 0 := by omega
      norm_num) (by norm_num) (by norm_num) env₁ env₂ 0 0 0 (fun v hv => by rw [h₁ v hv, abs_zero]) (fun v hv => by rw [h₂ v hv, abs_zero])
    ⟨le_rfl, le_rfl⟩ (fun _ => δ) (fun _ _ => hδ) hu' (fun c _ i hi => absurd hi (Nat.not_lt_zero _)) le_rfl (fun i hi => by
      change i < 1 at hi
      obtain rfl : i = 0 := by omega
      rw [h0, sub_self, abs_zero])
  have q := C141_quadrature exFresh freshI _ _ _ _ _ _ _ _ _ _ _ _ false s idealCsFunction_spec pre hs (by decide) 1 0 1
    (fun e e' hu _ _ _ δ η hx _ k hk => by
      have h1 : e 2 0 0 = e' 2 0 0 := hu 0 Nat.one_pos
      have h2 : |e 0 0 0 - e' 0 0 0| ≤ δ := hx 0 Nat.one_pos
      change |e 0 0 0 + e 2 0 0 - (e' 0 0 0 + e' 2 0 0)| ≤ _
      rw [h1, add_sub_add_right_eq_sub]
      linarith)
    ⟨zero_le_one, fun e e' _ hx _ _ _ δ hu _ i hi => by
      have h1 : e 0 0 0 = e' 0 0 0 := hx 0 Nat.one_pos
      have h2 : |e 2 0 0 - e' 2 0 0| ≤ δ := hu 0 Nat.one_pos
      change |e 0 0 0 + e 2 0 0 - (e' 0 0 0 + e' 2 0 0)| ≤ _
      rw [h1, add_sub_add_left_eq_sub]
      linarith⟩ T hT 1 (by rw [hM]; simp [hB0]) (fun n hn => by
      obtain rfl : n = 0 := by omega
      norm_num) env₁ env₂ (fun _ => δ) (fun _ => δ) (fun _ => 0) hu' (fun c _ i hi => absurd hi (Nat.not_lt_zero _))
    (fun n hn j hj i hi => by
      obtain rfl : n = 0 := by omega
      refine ((k 0 hn j hj).1 i hi).2.trans (le_of_eq ?_)
      simp
      ring) (fun n hn j hj k hk => absurd hk (Nat.not_lt_zero _)) 1 (by omega) 0 Nat.one_pos
  refine q.trans (le_of_eq ?_)
  norm_num
  ring

end CE
