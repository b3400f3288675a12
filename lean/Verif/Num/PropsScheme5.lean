import Verif.Num.PropsScheme2

/-!
# What `CollocationScheme` rejects (C70), and `combine` (C71)
-/

namespace CE

variable {K : Type} [Field K]

/-- A computation that succeeds is made of computations that succeed. -/
theorem bind_ok {α β : Type} {x : Except PyErr α} {f : α → Except PyErr β} {b : β} (h : x.bind f = .ok b) :
    ∃ a, x = .ok a ∧ f a = .ok b := by
  cases x with
  | error e => cases h
  | ok a => exact ⟨a, rfl, h⟩

theorem horzcat_rows {l : List (MXExpr K)} {R : ℕ} {e : MXExpr K} (h : MXExpr.horzcat l = .ok e) (hne : l ≠ [])
    (hr : ∀ a ∈ l, a.rows = R) : e.rows = R := by
  cases l with
  | nil => exact absurd rfl hne
  | cons a l =>
    unfold MXExpr.horzcat at h
    simp only at h
    split_ifs at h
    cases h
    exact hr a (by simp)

section
variable [DecidableEq K] {fresh freshI : String → ℕ} {casadiPoints : ℕ → String → Except PyErr (List K)}
    {csFunction : List (MXExpr K) → List (MXExpr K) → Except PyErr (CsFn K)}
    {dae : DaeObj K} {t : List K} {order : ℕ} {method : String} {tdp_fun : Option (K → Mat K)} {rep : Bool} {s : Scheme K}

/-- The steps of a construction that succeeds. -/
theorem Scheme.new_steps
    (hs : Scheme.new fresh freshI casadiPoints csFunction dae t order method tdp_fun rep = .ok s) :
    ∃ d U B Xf tdp out q, dae.makeImplicit freshI = .ok d ∧ t ≠ [] ∧
      butcherTableuForCollocationMethod casadiPoints order method = .ok B ∧ t.length - 1 ≠ 0 ∧
      Scheme.tdpValues tdp_fun d (Scheme.collocationTimes t (npDiff t) B (t.length - 1)) = .ok tdp ∧
      Scheme.evalDae csFunction d ((t.length - 1) * order) rep
        [.sym (fresh "K") d.nx ((t.length - 1) * order), Xf, .sym (fresh "Z") d.nz ((t.length - 1) * order), U,
          .sym (fresh "P") d.np (if rep then (t.length - 1) * order else 1),
          .const ⟨1, (Scheme.collocationTimes t (npDiff t) B (t.length - 1)).length,
            fun _ j => nd (Scheme.collocationTimes t (npDiff t) B (t.length - 1)) j⟩, tdp] = .ok out ∧
      Scheme.integrateQuad d.nq out.2 (t.length - 1) order (npDiff t) B = .ok q := by
  unfold Scheme.new at hs
  obtain ⟨d, hd, hs⟩ := bind_ok hs
  by_cases h1 : t = []
  · simp only [if_pos h1] at hs
    cases hs
  simp only [if_neg h1] at hs
  obtain ⟨U, hU, hs⟩ := bind_ok hs
  obtain ⟨B, hB, hs⟩ := bind_ok hs
  obtain ⟨Xf, hX, hs⟩ := bind_ok hs
  by_cases h2 : t.length - 1 = 0
  · rw [if_pos h2] at hs
    cases hs
  rw [if_neg h2] at hs
  obtain ⟨tdp, hT, hs⟩ := bind_ok hs
  obtain ⟨out, hE, hs⟩ := bind_ok hs
  obtain ⟨xr, -, hs⟩ := bind_ok hs
  obtain ⟨cont, -, hs⟩ := bind_ok hs
  obtain ⟨q, hq, hs⟩ := bind_ok hs
  exact ⟨d, U, B, Xf.1, tdp, out, q, hd, h1, hB, h2, hT, hE, hq⟩

/-- The steps of a mapped evaluation that succeeds: the shapes of the arguments fit, and the shapes of the results. -/
theorem Scheme.evalDae_shapes {d : DaeObj K} {n : ℕ} {Ks X Z U p tc tdp : MXExpr K} {out : MXExpr K × MXExpr K}
    (h : Scheme.evalDae csFunction d n rep [Ks, X, Z, U, p, tc, tdp] = .ok out) :
    n ≠ 0 ∧ p.rows = d.p.rows ∧ tdp.rows = d.tdp.rows ∧ tdp.cols = d.tdp.cols * n ∧
      out.2.rows = d.quad.rows ∧ out.2.cols = d.quad.cols * n := by
  obtain ⟨F, -, h⟩ := bind_ok h
  obtain ⟨ins, hins, h⟩ := bind_ok h
  obtain ⟨outs, houts, h⟩ := bind_ok h
  obtain ⟨res, hres, h⟩ := bind_ok h
  obtain ⟨dd, -, h⟩ := bind_ok h
  obtain ⟨q, hq, h⟩ := bind_ok h
  cases h
  obtain ⟨xdot, rs, hk⟩ : ∃ xdot rs, d.kind = .implicit xdot rs := by
    cases hk : d.kind with
    | base => simp [List.mapM_cons, DaeObj.getattr, hk, bind, Except.bind] at hins
    | semi ode alg => simp [List.mapM_cons, DaeObj.getattr, hk, bind, Except.bind] at hins
    | implicit xdot rs => exact ⟨_, _, rfl⟩
  have hins' : ["xdot", "x", "z", "u", "p", "t", "tdp"].mapM d.getattr = .ok [xdot, d.x, d.z, d.u, d.p, d.t, d.tdp] := by
    simp [List.mapM_cons, DaeObj.getattr, hk, bind, Except.bind, pure, Except.pure]
  have houts' : ["dae", "quad"].mapM d.getattr = .ok [rs, d.quad] := by
    simp [List.mapM_cons, DaeObj.getattr, hk, bind, Except.bind, pure, Except.pure]
  rw [hins'] at hins
  rw [houts'] at houts
  cases hins
  cases houts
  unfold mapCall at hres
  by_cases hn : n = 0
  · rw [if_pos hn] at hres
    cases hres
  rw [if_neg hn] at hres
  split_ifs at hres with hsh
  cases hres
  cases hq
  simp only [List.zip_cons_cons, List.zipWith_cons_cons, List.zip_nil_right, List.zipWith_nil_right, List.all_cons, List.all_nil, id,
      mapShapeOk, Bool.and_true, Bool.and_eq_true, decide_eq_true_eq] at hsh
  obtain ⟨-, -, -, -, h5, -, h7⟩ := hsh
  exact ⟨hn, h5.1, h7.1, by simpa using h7.2, rfl, rfl⟩

omit [DecidableEq K] in
theorem mtimes_rows {a b e : MXExpr K} (h : a.mtimes b = .ok e) (hs : ¬ (a.rows = 1 ∧ a.cols = 1)) : e.rows = a.rows := by
  unfold MXExpr.mtimes at h
  by_cases h1 : a.cols = b.rows
  · rw [if_pos h1] at h
    cases h
    rfl
  rw [if_neg h1, if_neg (by simpa [MXExpr.isScalar] using hs)] at h
  split_ifs at h
  cases h
  rfl

/-- The quadratures can only be integrated if their expression is a column. -/
theorem Scheme.integrateQuad_column {quad : MXExpr K} {N M c : ℕ} {tau h : List K} {q : MXExpr K × MXExpr K}
    (hN : 0 < N) (hM : 0 < M) (hr : 0 < quad.rows) (hc : quad.cols = c * (N * M)) (hl : h.length = N)
    (hq : Scheme.integrateQuad (quad.rows * c) quad N M h (schemeTableau tau M) = .ok q) : c = 1 := by
  obtain ⟨b1, b2, -⟩ := schemeTableau_b tau M
  have hNM : 0 < N * M := Nat.mul_pos hN hM
  obtain ⟨qs, hqs, hq⟩ := bind_ok hq
  obtain ⟨qq, hqq, hq⟩ := bind_ok hq
  obtain ⟨ql, hql, hq⟩ := bind_ok hq
  obtain ⟨Q1, hQ1, hq⟩ := bind_ok hq
  obtain ⟨Q2, hQ2, hq⟩ := bind_ok hq
  obtain ⟨Q, hQ, hq⟩ := bind_ok hq
  by_contra hc1
  obtain ⟨q0, qt, rfl, h0, h1⟩ : ∃ q0 qt, qs = q0 :: qt ∧ q0.rows = quad.rows * c ∧
      ∃ q1, Scheme.qAt (quad.rows * c) quad h M (schemeTableau tau M).b.toCol 1 = .ok q1 := by
    rw [List.range_succ_eq_map, List.mapM_cons] at hqs
    obtain ⟨q0, h0, hqs⟩ := bind_ok hqs
    obtain ⟨qt, ht, hqs⟩ := bind_ok hqs
    cases hqs
    cases h0
    refine ⟨_, _, rfl, rfl, ?_⟩
    obtain ⟨n, rfl⟩ : ∃ n, N = n + 1 := ⟨N - 1, by omega⟩
    rw [List.range_succ_eq_map, List.map_cons, List.mapM_cons] at ht
    obtain ⟨q1, h1, -⟩ := bind_ok ht
    exact ⟨q1, h1⟩
  obtain ⟨q1, h1⟩ := h1
  obtain ⟨blk, hb, h1⟩ := bind_ok h1
  obtain ⟨v, hv, h1⟩ := bind_ok h1
  unfold MXExpr.colSlice at hb
  split_ifs at hb with hle
  cases hb
  rw [mtimes_ok _ _ (by exact b1.symm)] at hv
  cases hv
  have hcne : c ≠ 0 := by
    rintro rfl
    omega
  have hrc : quad.rows * c ≠ quad.rows := by
    intro h
    exact hc1 (Nat.eq_of_mul_eq_mul_left hr (h.trans (Nat.mul_one _).symm))
  have hr1 : quad.rows = 1 := by
    unfold MXExpr.add at h1
    rw [if_neg (fun h => hrc h.1), if_neg] at h1
    · split_ifs at h1 with h2
      simpa [MXExpr.isScalar, MXExpr.scale, MXExpr.const, b2] using h2
    · intro h2
      have h2 : quad.rows * c = 1 := by simpa [MXExpr.isScalar, MXExpr.const] using h2
      exact hc1 (Nat.eq_one_of_mul_eq_one_left h2)
  have hc2 : 2 ≤ c := by omega
  have hqr : qq.rows = c := by
    unfold MXExpr.horzcat at hqq
    simp only at hqq
    split_ifs at hqq
    cases hqq
    rw [h0, hr1, Nat.one_mul]
  have hqlr : ql.rows = c := by
    unfold MXExpr.colSlice at hql
    split_ifs at hql
    cases hql
    exact hqr
  have hQ1r : Q1.rows = c := by rw [mtimes_rows hQ1 (by omega), hqlr]
  have hcc : 2 ≤ quad.cols := by
    rw [hc]
    nlinarith
  have hQ2 : Q2.rows = 1 ∧ 2 ≤ Q2.cols := by
    refine ⟨by rw [mtimes_rows hQ2 (by omega), hr1], ?_⟩
    unfold MXExpr.mtimes at hQ2
    rw [if_neg, if_neg] at hQ2
    · split_ifs at hQ2
      cases hQ2
      exact hcc
    · simp only [MXExpr.isScalar, decide_eq_true_eq]
      omega
    · rw [hc]
      simp only [MXExpr.const, Mat.kron, Mat.diagcat, Mat.T, schemeTableau, NdArray.mat2, NdArray.toMat, List.getD_cons_zero,
        List.getD_cons_succ, hl]
      intro h
      exact hc1 (Nat.eq_of_mul_eq_mul_right hNM (h.trans (Nat.one_mul _).symm))
  unfold MXExpr.add at hQ
  rw [if_neg (by omega), if_neg (by simp [MXExpr.isScalar]; omega), if_neg (by simp [MXExpr.isScalar]; omega)] at hQ
  cases hQ

/-- **C70**.  If the construction succeeds there is at least one interval; without a function for the
time-dependent parameter the model has none; quadratures that are there form a column; a parameter with several rows has at
most one column; and with two or more points a function for the time-dependent parameter gives matrices with its number of
rows. -/
theorem C70_rejects [CharZero K] (d : DaeObj K) (tau : List K) (hd : dae.makeImplicit freshI = .ok d)
    (hpts : casadiPoints order method = .ok tau) (hlen : tau.length = order)
    (hs : Scheme.new fresh freshI casadiPoints csFunction dae t order method tdp_fun rep = .ok s) :
    2 ≤ t.length ∧ 0 < order ∧ (tdp_fun = none → d.ntdp = 0) ∧ (0 < d.quad.rows → d.quad.cols = 1) ∧
      (2 ≤ d.p.rows → d.p.cols ≤ 1) ∧
      ∀ f R, tdp_fun = some f → 0 < R → 0 < d.tdp.rows → 2 ≤ (t.length - 1) * order → (∀ s, (f s).rows = R) →
        R = d.tdp.rows := by
  obtain ⟨d', U, B, X, tdp, out, q, hd', h1, hB, h2, hT, hE, hq⟩ := Scheme.new_steps hs
  rw [hd] at hd'
  cases hd'
  have hBe : B = schemeTableau tau order := by
    unfold butcherTableuForCollocationMethod at hB
    rw [hpts] at hB
    have := butcher_ok tau
    rw [hlen] at this
    exact (Except.ok.inj (this.symm.trans hB)).symm
  subst hBe
  have hN : t.length = t.length - 1 + 1 := by omega
  obtain ⟨hn0, hp, htr, htc, hqr, hqc⟩ := Scheme.evalDae_shapes hE
  have ho : 0 < order := Nat.pos_of_ne_zero fun h => hn0 (by rw [h, Nat.mul_zero])
  refine ⟨by omega, ho, ?_, ?_, ?_, ?_⟩
  · rintro rfl
    unfold Scheme.tdpValues at hT
    by_contra h
    rw [if_pos h] at hT
    cases hT
  · intro h
    refine Scheme.integrateQuad_column (N := t.length - 1) (M := order) (q := q) (tau := tau) (h := npDiff t) (by omega) ho
      (by rw [hqr]; exact h) hqc (npDiff_length t) ?_
    rw [hqr]
    exact hq
  · intro h
    have hp : d.p.rows * d.p.cols = d.p.rows := hp
    exact (Nat.eq_of_mul_eq_mul_left (by omega) (hp.trans (Nat.mul_one _).symm)).le
  · rintro f R rfl hR0 hr hn hR
    have htl := (collocationTimes_ok t (t.length - 1) hN tau order hlen).1
    rw [← htr]
    refine (horzcat_rows hT ?_ ?_).symm
    · intro h
      have := congrArg List.length h
      rw [List.length_map, htl] at this
      exact hn0 this
    · intro a ha
      obtain ⟨x, -, rfl⟩ := List.mem_map.mp ha
      exact hR x

omit [DecidableEq K] in
/-- **C71** For distinct admitted names the result has the attributes of these names, in the given order; a repeated name, and
any other name, raises. -/
theorem C71_combine (s : Scheme K) (what : List String) :
    ((∀ w ∈ what, w ∈ ["K", "x", "Z", "U", "u", "p", "eq", "q"]) → what.Nodup → ∃ l, s.combine what = .ok l ∧ l.map (·.1) = what ∧
      ∀ e, (("K", e) ∈ l → e = s.Kd) ∧ (("x", e) ∈ l → e = s.x) ∧ (("Z", e) ∈ l → e = s.Z) ∧ (("U", e) ∈ l → e = s.U) ∧
        (("u", e) ∈ l → e = s.u) ∧ (("p", e) ∈ l → e = s.p) ∧ (("eq", e) ∈ l → e = s.eq) ∧ (("q", e) ∈ l → e = s.q)) ∧
    ((∀ w ∈ what, w ∈ ["K", "x", "Z", "U", "u", "p", "eq", "q"]) → ¬ what.Nodup → s.combine what = .error .generic) ∧
    ((∃ w ∈ what, w ∉ ["K", "x", "Z", "U", "u", "p", "eq", "q"]) → s.combine what = .error .assertion) := by
  have hok : ∀ what : List String, (∀ w ∈ what, w ∈ ["K", "x", "Z", "U", "u", "p", "eq", "q"]) →
      ∃ l, (what.mapM fun w => do let e ← s.getattr w; pure (w, e) : Except PyErr (List (String × MXExpr K))) = .ok l ∧
        l.map (·.1) = what ∧
      ∀ e, (("K", e) ∈ l → e = s.Kd) ∧ (("x", e) ∈ l → e = s.x) ∧ (("Z", e) ∈ l → e = s.Z) ∧ (("U", e) ∈ l → e = s.U) ∧
        (("u", e) ∈ l → e = s.u) ∧ (("p", e) ∈ l → e = s.p) ∧ (("eq", e) ∈ l → e = s.eq) ∧ (("q", e) ∈ l → e = s.q) := by
    intro what h
    let g : String → MXExpr K := fun w => if w = "K" then s.Kd else if w = "x" then s.x else if w = "Z" then s.Z
      else if w = "U" then s.U else if w = "u" then s.u else if w = "p" then s.p else if w = "eq" then s.eq else s.q
    have hg : ∀ w ∈ ["K", "x", "Z", "U", "u", "p", "eq", "q"], s.getattr w = .ok (g w) := by
      intro w hw
      simp only [List.mem_cons, List.not_mem_nil, or_false] at hw
      rcases hw with rfl | rfl | rfl | rfl | rfl | rfl | rfl | rfl <;> rfl
    refine ⟨what.map fun w => (w, g w), mapM_all_ok _ _ _ fun w hw => ?_, by simp [Function.comp_def], ?_⟩
    · show Except.bind (s.getattr w) _ = _
      rw [hg w (h w hw)]
      rfl
    · intro e
      simp only [List.mem_map, Prod.mk.injEq]
      refine ⟨?_, ?_, ?_, ?_, ?_, ?_, ?_, ?_⟩ <;> (rintro ⟨w, -, rfl, rfl⟩; rfl)
  refine ⟨fun h hn => ?_, fun h hn => ?_, ?_⟩
  · obtain ⟨l, h1, h2⟩ := hok what h
    refine ⟨l, ?_, h2⟩
    show Except.bind (List.mapM _ _) _ = _
    rw [h1]
    exact if_pos hn
  · obtain ⟨l, h1, h2⟩ := hok what h
    show Except.bind (List.mapM _ _) _ = _
    rw [h1]
    exact if_neg hn
  · rintro ⟨w, hw, hn⟩
    have he : s.getattr w = .error .assertion := by
      simp only [List.mem_cons, List.not_mem_nil, or_false, not_or] at hn
      obtain ⟨n1, n2, n3, n4, n5, n6, n7, n8⟩ := hn
      rw [Scheme.getattr, if_neg n1, if_neg n2, if_neg n3, if_neg n4, if_neg n5, if_neg n6, if_neg n7, if_neg n8]
    have hall : ∀ v, (∃ e, s.getattr v = .ok e) ∨ s.getattr v = .error .assertion := by
      intro v
      unfold Scheme.getattr
      split_ifs <;> first | exact .inl ⟨_, rfl⟩ | exact .inr rfl
    suffices hm : (what.mapM fun w => do let e ← s.getattr w; pure (w, e) : Except PyErr (List (String × MXExpr K))) =
        .error .assertion by
      show Except.bind (List.mapM _ _) _ = _
      rw [hm]
      rfl
    clear hn
    induction what with
    | nil => cases hw
    | cons v vs ih =>
      rw [List.mapM_cons]
      rcases List.mem_cons.mp hw with rfl | hw
      · rw [he]
        rfl
      · rcases hall v with ⟨e, hv⟩ | hv
        · rw [hv]
          show Except.bind (List.mapM _ vs) _ = _
          rw [ih hw]
          rfl
        · rw [hv]
          rfl

end

/-- `combine(["q", "x"])`, a repeated name, and a name that the documentation of `combine` lists but that is not admitted. -/
example (s : Scheme ℚ) : s.combine ["q", "x"] = .ok [("q", s.q), ("x", s.x)] ∧ s.combine ["x", "q", "x"] = .error .generic ∧
    s.combine ["x", "x", "x0"] = .error .assertion :=
  ⟨rfl, (C71_combine s _).2.1 (by decide) (by decide), (C71_combine s _).2.2 ⟨"x0", by simp, by decide⟩⟩

/-- The model of the example is rejected if its time-dependent parameter function gives two rows. -/
example (fresh freshI : String → ℕ) (s : Scheme ℚ) : Scheme.new fresh freshI (fun _ _ => .ok [1 / 3, 1]) idealCsFunction exO
    [0, 1, 3] 2 "radau" (some fun x => ⟨2, 2, fun _ _ => x⟩) ≠ .ok s := by
  intro h
  have := (C70_rejects (exD freshI) [1 / 3, 1] rfl rfl rfl h).2.2.2.2.2 _ 2 rfl (by omega) Nat.one_pos (by simp) fun _ => rfl
  exact absurd this (by simp [exD, MXExpr.sym])

end CE
