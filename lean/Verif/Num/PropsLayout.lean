import Verif.Num.PropsReverse
import Verif.Num.PropsScheme3
import Verif.Num.PropsAdjoint

/-! # Property C139: identities of symbols and the layout of the parameter -/

namespace CE

variable {K : Type} [Field K]

/-- The variables of the schemes `s` and `s'` have the same values; the parameter of a point is column `c` of `p` if there is a column
for every point, and the only column otherwise. -/
structure EqualVars (s s' : Scheme K) (d : DaeObj K) (rep rep' : Bool) (env env' : Env K) : Prop where
  x : ∀ n ≤ s.N, ∀ i < d.nx, s'.x.val env' i n = s.x.val env i n
  k : ∀ c < s.N * s.M, ∀ i < d.nx, s'.Kd.val env' i c = s.Kd.val env i c
  z : ∀ c < s.N * s.M, ∀ i < d.nz, s'.Z.val env' i c = s.Z.val env i c
  u : ∀ n < s.N, ∀ i < d.nu, s'.u.val env' i n = s.u.val env i n
  p : ∀ c < s.N * s.M, ∀ i < d.np, s'.p.val env' i (if rep' then c else 0) = s.p.val env i (if rep then c else 0)

section
variable [DecidableEq K] [CharZero K] (fresh fresh' freshI : String → ℕ) (casadiPoints : ℕ → String → Except PyErr (List K))
    (csFunction : List (MXExpr K) → List (MXExpr K) → Except PyErr (CsFn K))
    (dae : DaeObj K) (t : List K) (order : ℕ) (method : String) (tdp_fun : Option (K → Mat K))
    (d : DaeObj K) (xdot res : MXExpr K) (tau : List K) (F : CsFn K) (rep rep' : Bool) (s s' : Scheme K)

/-- **C139** (values) The scheme's attributes depend neither on the identities of the symbols it creates nor on `repeat_param`: for the same
values of the variables all the attributes have the same values. -/
theorem C139_values (hcs : IsCsFunction csFunction)
    (pre : SchemePre freshI casadiPoints csFunction dae t order method tdp_fun d xdot res tau F)
    (hs : Scheme.new fresh freshI casadiPoints csFunction dae t order method tdp_fun rep = .ok s)
    (hs' : Scheme.new fresh' freshI casadiPoints csFunction dae t order method tdp_fun rep' = .ok s')
    (env env' : Env K) (h : EqualVars s s' d rep rep' env env') :
    s'.N = s.N ∧ s'.M = s.M ∧ s'.tc = s.tc ∧
    (∀ c < s.N * s.M, (∀ i < d.nx, s'.X.val env' i c = s.X.val env i c) ∧ (∀ i < d.nu, s'.U.val env' i c = s.U.val env i c) ∧
      (∀ i < res.rows, s'.eqCollocation.val env' i c = s.eqCollocation.val env i c) ∧
      (∀ i < d.nq, s'.quad.val env' i c = s.quad.val env i c ∧ s'.Q.val env' i c = s.Q.val env i c)) ∧
    (∀ n < s.N, ∀ i < d.nx, s'.eqContinuity.val env' i n = s.eqContinuity.val env i n) ∧
    ∀ n ≤ s.N, ∀ i < d.nq, s'.q.val env' i n = s.q.val env i n := by
  have b := pre.built hs
  have b' := pre.built hs'
  have hpos := pre.pos
  have hnq : d.nq = d.quad.rows := by simp [DaeObj.nq, MXExpr.numel, pre.quad]
  have hnp : d.np = d.p.rows := by simp [DaeObj.np, MXExpr.numel, pre.p]
  have hN := b.N_eq
  have hM := b.M_eq
  have hN' := b'.N_eq
  have hM' := b'.M_eq
  obtain ⟨hx, hk, hz, hu, hp⟩ := h
  rw [hN, hM] at hk hz hp
  rw [hN] at hx hu
  have hsplit : ∀ c < (t.length - 1) * order, ∃ n j, n < t.length - 1 ∧ j < order ∧ c = n * order + j := fun c hc =>
    ⟨c / order, c % order, Nat.div_lt_of_lt_mul (by rwa [Nat.mul_comm]), Nat.mod_lt _ hpos, (Nat.div_add_mod' c order).symm⟩
  have vx : ∀ n ≤ t.length - 1, ∀ i < d.nx, env' (fresh' "x") i n = env (fresh "x") i n := by
    intro n hn i hi
    have := hx n hn i hi
    rw [b.x, b'.x] at this
    exact this
  have vk : ∀ n < t.length - 1, ∀ j < order, ∀ i < d.nx, env' (fresh' "K") i (n * order + j) = env (fresh "K") i (n * order + j) := by
    intro n hn j hj i hi
    have := hk _ (block_lt hn hj) i hi
    rw [b.Kd, b'.Kd] at this
    exact this
  have htc : s'.tc = s.tc := by
    refine List.ext_getElem (by rw [b.tc_len, b'.tc_len]) fun c h1 h2 => ?_
    rw [← nd_eq_getElem h1, ← nd_eq_getElem h2]
    rw [b'.tc_len] at h1
    obtain ⟨n, j, hn, hj, rfl⟩ := hsplit c h1
    rw [b'.tc n j hn hj, b.tc n j hn hj]
  have hX : ∀ c < (t.length - 1) * order, ∀ i < d.nx, s'.X.val env' i c = s.X.val env i c := by
    intro c hc i hi
    obtain ⟨n, j, hn, hj, rfl⟩ := hsplit c hc
    rw [b'.X env' i n j hn hj, b.X env i n j hn hj, vx n hn.le i hi]
    refine congrArg₂ _ rfl (congrArg₂ _ rfl (Finset.sum_congr rfl fun k hk => ?_))
    rw [vk n hn k (Finset.mem_range.mp hk) i hi]
  have hout : ∀ c < (t.length - 1) * order, (∀ i < res.rows, s'.eqCollocation.val env' i c = s.eqCollocation.val env i c) ∧
      ∀ i < d.nq, s'.quad.val env' i c = s.quad.val env i c := by
    intro c hc
    obtain ⟨e, hat'⟩ := exists_atPoint hcs pre b'.toCore env' hc
    have hat : AtPoint s d xdot tdp_fun rep env e c := by
      refine ⟨?_, ?_, ?_, ?_, ?_, ?_, ?_⟩
      · intro i hi; rw [hat'.xdot i hi, hk c hc i (by rw [pre.wf.nx]; exact hi)]
      · intro i hi; rw [hat'.x i hi, hX c hc i (by rw [pre.wf.nx]; exact hi)]
      · intro i hi; rw [hat'.z i hi, hz c hc i (by rw [pre.wf.nz]; exact hi)]
      · intro i hi
        rw [hat'.u i hi, hM', hM]
        exact hu _ (Nat.div_lt_of_lt_mul (by rwa [Nat.mul_comm])) i (by rw [pre.wf.nu]; exact hi)
      · intro i hi; rw [hat'.p i hi]; exact hp c hc i (by rw [hnp]; exact hi)
      · rw [hat'.t, htc]
      · intro f hf i hi j hj; rw [hat'.tdp f hf i hi j hj, htc]
    have o := hat.out hcs pre b.toCore hc
    have o' := hat'.out hcs pre b'.toCore hc
    exact ⟨fun i hi => by rw [o'.1 i hi, o.1 i hi], fun i hi => by rw [o'.2 i (hnq ▸ hi), o.2 i (hnq ▸ hi)]⟩
  have hq : ∀ n ≤ t.length - 1, ∀ i < d.nq, s'.q.val env' i n = s.q.val env i n := by
    intro n
    induction n with
    | zero => intro _ i _; rw [b'.q_zero, b.q_zero]
    | succ n ih =>
      intro hn i hi
      rw [b'.q env' i n (by omega), b.q env i n (by omega), ih (by omega) i hi]
      refine congrArg₂ _ rfl (congrArg₂ _ rfl (Finset.sum_congr rfl fun k hk => ?_))
      rw [(hout _ (block_lt (by omega) (Finset.mem_range.mp hk))).2 i hi]
  rw [hN, hM]
  refine ⟨hN', hM', htc, fun c hc => ⟨hX c hc, ?_, (hout c hc).1, fun i hi => ⟨(hout c hc).2 i hi, ?_⟩⟩, ?_, hq⟩
  · intro i hi
    obtain ⟨n, j, hn, hj, rfl⟩ := hsplit c hc
    have := hu n hn i hi
    rw [b.u, b'.u] at this
    rw [b'.U env' i n j hn hj, b.U env i n j hn hj]
    exact this
  · obtain ⟨n, j, hn, hj, rfl⟩ := hsplit c hc
    rw [b'.Q env' i n j hn hj, b.Q env i n j hn hj, hq n hn.le i hi]
    refine congrArg₂ _ rfl (congrArg₂ _ rfl (Finset.sum_congr rfl fun k hk => ?_))
    rw [(hout _ (block_lt hn (Finset.mem_range.mp hk))).2 i hi]
  · intro n hn i hi
    rw [b'.cont env' i n hn, b.cont env i n hn, vx n hn.le i hi, vx (n + 1) hn i hi]
    refine congrArg₂ _ (congrArg₂ _ rfl (congrArg₂ _ rfl (Finset.sum_congr rfl fun k hk => ?_))) rfl
    rw [vk n hn k (Finset.mem_range.mp hk) i hi]

/-- **C139** (equations) The equations have the same solutions: for the same values of the variables the equations of the scheme with one
parameter column hold exactly if those of the scheme with a column for every point hold. -/
theorem C139_equations (hcs : IsCsFunction csFunction)
    (pre : SchemePre freshI casadiPoints csFunction dae t order method tdp_fun d xdot res tau F)
    (hs : Scheme.new fresh freshI casadiPoints csFunction dae t order method tdp_fun false = .ok s)
    (hs' : Scheme.new fresh' freshI casadiPoints csFunction dae t order method tdp_fun rep' = .ok s')
    (env env' : Env K) (h : EqualVars s s' d false rep' env env') :
    (∀ v ∈ s'.eq.vals env', v = 0) ↔ ∀ v ∈ s.eq.vals env, v = 0 := by
  have b := pre.built hs
  have b' := pre.built hs'
  obtain ⟨-, -, -, hc, hcont, -⟩ := C139_values fresh fresh' freshI casadiPoints csFunction dae t order method tdp_fun d xdot res tau F false
    rep' s s' hcs pre hs hs' env env' h
  rw [b.N_eq, b.M_eq] at hc
  rw [b.N_eq] at hcont
  rw [Scheme.eq_zero_iff pre b', Scheme.eq_zero_iff pre b]
  constructor
  · rintro ⟨h1, h2, -⟩
    exact ⟨fun c hc' i hi => by rw [← (hc c hc').2.2.1 i hi]; exact h1 c hc' i hi,
      fun n hn i hi => by rw [← hcont n hn i hi]; exact h2 n hn i hi, fun h => by cases h⟩
  · rintro ⟨h1, h2, -⟩
    refine ⟨fun c hc' i hi => by rw [(hc c hc').2.2.1 i hi]; exact h1 c hc' i hi,
      fun n hn i hi => by rw [hcont n hn i hi]; exact h2 n hn i hi, fun hr c hc' i hi => ?_⟩
    subst hr
    have hp := h.p
    rw [b.N_eq, b.M_eq] at hp
    have e1 := hp c hc' i hi
    have e2 := hp 0 (by omega) i hi
    simp only [if_true, Bool.false_eq_true, if_false] at e1 e2
    rw [e1, e2]

/-- **C139** (correspondence) Every solution of the equations of one of the schemes is one of the other: with a column for every point the
equations make the columns equal. -/
theorem C139_solutions (hcs : IsCsFunction csFunction)
    (pre : SchemePre freshI casadiPoints csFunction dae t order method tdp_fun d xdot res tau F)
    (hs : Scheme.new fresh freshI casadiPoints csFunction dae t order method tdp_fun false = .ok s)
    (hs' : Scheme.new fresh' freshI casadiPoints csFunction dae t order method tdp_fun true = .ok s')
    (hfr : DistinctSyms fresh) (hfr' : DistinctSyms fresh') :
    (∀ env', (∀ v ∈ s'.eq.vals env', v = 0) → ∃ env, EqualVars s s' d false true env env' ∧ ∀ v ∈ s.eq.vals env, v = 0) ∧
    ∀ env, (∀ v ∈ s.eq.vals env, v = 0) → ∃ env', EqualVars s s' d false true env env' ∧ ∀ v ∈ s'.eq.vals env', v = 0 := by
  have b := pre.built hs
  have b' := pre.built hs'
  constructor
  · intro env' h'
    have hp := ((Scheme.eq_zero_iff pre b' env').mp h').2.2 rfl
    let env : Env K := fun id => if id = fresh "x" then s'.x.val env' else if id = fresh "K" then s'.Kd.val env'
      else if id = fresh "Z" then s'.Z.val env' else if id = fresh "u" then s'.u.val env' else s'.p.val env'
    have sv : EqualVars s s' d false true env env' := by
      refine ⟨?_, ?_, ?_, ?_, ?_⟩
      · intro n _ i _
        rw [b.x]
        show _ = env (fresh "x") i n
        simp [env]
      · intro c _ i _
        rw [b.Kd]
        show _ = env (fresh "K") i c
        simp [env, hfr.xK.symm]
      · intro c _ i _
        rw [b.Z]
        show _ = env (fresh "Z") i c
        simp [env, hfr.xZ.symm, hfr.KZ.symm]
      · intro n _ i _
        rw [b.u]
        show _ = env (fresh "u") i n
        simp [env, hfr.xu.symm, hfr.Ku.symm, hfr.Zu.symm]
      · intro c hc i hi
        rw [b.N_eq, b.M_eq] at hc
        rw [b.p]
        show _ = env (fresh "P") i 0
        simp only [if_true]
        rw [hp c hc i hi]
        simp [env, hfr.xP.symm, hfr.KP.symm, hfr.ZP.symm, hfr.uP.symm]
    exact ⟨env, sv, (C139_equations fresh fresh' freshI casadiPoints csFunction dae t order method tdp_fun d xdot res tau F true s s' hcs pre
      hs hs' env env' sv).mp h'⟩
  · intro env h
    let env' : Env K := fun id => if id = fresh' "x" then s.x.val env else if id = fresh' "K" then s.Kd.val env
      else if id = fresh' "Z" then s.Z.val env else if id = fresh' "u" then s.u.val env else fun i _ => s.p.val env i 0
    have sv : EqualVars s s' d false true env env' := by
      refine ⟨?_, ?_, ?_, ?_, ?_⟩
      · intro n _ i _
        rw [b'.x]
        show env' (fresh' "x") i n = _
        simp [env']
      · intro c _ i _
        rw [b'.Kd]
        show env' (fresh' "K") i c = _
        simp [env', hfr'.xK.symm]
      · intro c _ i _
        rw [b'.Z]
        show env' (fresh' "Z") i c = _
        simp [env', hfr'.xZ.symm, hfr'.KZ.symm]
      · intro n _ i _
        rw [b'.u]
        show env' (fresh' "u") i n = _
        simp [env', hfr'.xu.symm, hfr'.Ku.symm, hfr'.Zu.symm]
      · intro c _ i _
        rw [b'.p]
        show env' (fresh' "P") i c = _
        simp [env', hfr'.xP.symm, hfr'.KP.symm, hfr'.ZP.symm, hfr'.uP.symm]
    exact ⟨env', sv, (C139_equations fresh fresh' freshI casadiPoints csFunction dae t order method tdp_fun d xdot res tau F true s s' hcs pre
      hs hs' env env' sv).mpr h⟩

/-- **C139** (sizes) With a column for every point there are as many more equations as there are more unknowns. -/
theorem C139_sizes
    (pre : SchemePre freshI casadiPoints csFunction dae t order method tdp_fun d xdot res tau F)
    (hs : Scheme.new fresh freshI casadiPoints csFunction dae t order method tdp_fun false = .ok s)
    (hs' : Scheme.new fresh' freshI casadiPoints csFunction dae t order method tdp_fun true = .ok s') :
    s'.p.numel = s.p.numel + d.np * (s.N * s.M - 1) ∧ s'.eq.rows = s.eq.rows + d.np * (s.N * s.M - 1) ∧
    s'.x.numel = s.x.numel ∧ s'.Kd.numel = s.Kd.numel ∧ s'.Z.numel = s.Z.numel ∧ s'.u.numel = s.u.numel := by
  have b := pre.built hs
  have b' := pre.built hs'
  have hnp : d.np = d.p.rows := by simp [DaeObj.np, MXExpr.numel, pre.p]
  have h2 := pre.two
  have hpos : 0 < (t.length - 1) * order := Nat.mul_pos (by omega) pre.pos
  rw [b.N_eq, b.M_eq, hnp]
  refine ⟨?_, ?_, by rw [b.x, b'.x]; rfl, by rw [b.Kd, b'.Kd]; rfl, by rw [b.Z, b'.Z]; rfl, by rw [b.u, b'.u]; rfl⟩
  · rw [b.p, b'.p]
    show d.p.rows * ((t.length - 1) * order) = d.p.rows * 1 + _
    rw [← Nat.mul_add]
    congr 1
    omega
  · show (List.map MXExpr.numel [s'.eqCollocation, s'.eqContinuity, s'.eqParam]).sum =
      (List.map MXExpr.numel [s.eqCollocation, s.eqContinuity, s.eqParam]).sum + _
    simp only [List.map_cons, List.map_nil, List.sum_cons, List.sum_nil, MXExpr.numel,
      b.coll_shape.1, b.coll_shape.2, b.cont_shape.1, b.cont_shape.2, b.param, MXExpr.diffCols,
      b'.coll_shape.1, b'.coll_shape.2, b'.cont_shape.1, b'.cont_shape.2, b'.param]
    rw [b.p, b'.p]
    simp only [MXExpr.sym, if_true, Bool.false_eq_true, if_false, Nat.sub_self, Nat.mul_zero, Nat.add_zero]
    ring

end

/-! ## Non-vacuity -/

/-- The scheme for `x' = p` with the quadrature `x` on `[0, 1, 2]` (midpoint rule), with one parameter column and with a column for each of
the two points: the second has one unknown and one equation more, the equations of the first have a solution with `p = 1` and
`x = 0, 1, 2`, which is one of the second with `p = 1, 1` and the same quadratures, and every solution of the second is one of the first. -/
example (freshI : String → ℕ) (hI : 6 ≤ freshI "xdot") : ∃ s s' : Scheme ℝ,
    Scheme.new exFresh freshI (fun _ _ => .ok [1 / 2]) idealCsFunction (odeUO 1 0 1 1 (fun e _ => e 3 0 0) fun e _ => e 0 0 0) [0, 1, 2] 1
      "legendre" none false = .ok s ∧
    Scheme.new exFresh freshI (fun _ _ => .ok [1 / 2]) idealCsFunction (odeUO 1 0 1 1 (fun e _ => e 3 0 0) fun e _ => e 0 0 0) [0, 1, 2] 1
      "legendre" none true = .ok s' ∧
    s'.p.numel = s.p.numel + 1 ∧ s'.eq.rows = s.eq.rows + 1 ∧
    (∃ env', (∀ v ∈ s'.eq.vals env', v = 0) ∧ s'.x.val env' 0 2 = 2 ∧ s'.p.val env' 0 0 = 1 ∧ s'.p.val env' 0 1 = 1 ∧ s'.q.val env' 0 2 = 2) ∧
    ∀ env', (∀ v ∈ s'.eq.vals env', v = 0) → ∃ env, (∀ v ∈ s.eq.vals env, v = 0) ∧ s.x.val env 0 2 = s'.x.val env' 0 2 ∧
      s.q.val env 0 2 = s'.q.val env' 0 2 := by
  obtain ⟨F, pre⟩ := odeU_pre freshI hI 1 0 1 1 (fun e _ => e 3 0 0) (fun e _ => e 0 0 0)
    (fun e e' h0 _ h3 _ => ⟨fun _ _ => h3 0 Nat.one_pos, fun _ _ => h0 0 Nat.one_pos⟩) rfl [0, 1, 2] [1 / 2] (by simp) (by simp)
  have pre : SchemePre freshI (fun _ _ => .ok [1 / 2]) idealCsFunction (odeUO 1 0 1 1 (fun e _ => e 3 0 0) fun e _ => e 0 0 0) [0, 1, 2] 1
      "legendre" none (odeUD freshI 1 0 1 1 (fun e _ => e 3 0 0) fun e _ => e 0 0 0) (.sym (freshI "xdot") 1)
      (odeRes freshI 1 fun e _ => e 3 0 0) [1 / 2] F := pre
  obtain ⟨s, hs⟩ := C26_constructed exFresh freshI _ _ _ _ _ _ _ _ _ _ _ _ false pre
  obtain ⟨s', hs'⟩ := C26_constructed exFresh freshI _ _ _ _ _ _ _ _ _ _ _ _ true pre
  have b := pre.built hs
  have b' := pre.built hs'
  have hfr : DistinctSyms exFresh := by constructor <;> decide
  obtain ⟨z1, z2, -⟩ := C139_sizes exFresh exFresh freshI _ _ _ _ _ _ _ _ _ _ _ _ s s' pre hs hs'
  obtain ⟨k1, k2⟩ := C139_solutions exFresh exFresh freshI _ _ _ _ _ _ _ _ _ _ _ _ s s' idealCsFunction_spec pre hs hs' hfr hfr
  have hN : s.N = 2 := b.N_eq
  have hM : s.M = 1 := b.M_eq
  have hval := fun env env' h => C139_values exFresh exFresh freshI _ _ _ _ _ _ _ _ _ _ _ _ false true s s' idealCsFunction_spec pre hs hs'
    env env' h
  rw [hN, hM] at z1 z2
  refine ⟨s, s', hs, hs', z1, z2, ?_, fun env' h' => ?_⟩
  · obtain ⟨hA, hB⟩ := wA_half
    let env : Env ℝ := fun id _ n => if id = 0 then n else 1
    have f0 : exFresh "x" = 0 := rfl
    have f1 : exFresh "K" = 1 := rfl
    have f4 : exFresh "P" = 4 := rfl
    have hX : ∀ n < 2, s.X.val env 0 (n * 1 + 0) = n + 1 / 2 := fun n hn => by
      rw [b.X env 0 n 0 hn Nat.one_pos]
      simp only [Finset.sum_range_one, hA]
      interval_cases n <;> norm_num [env, nd, f0, f1]
    have hq : ∀ n < 2, s.quad.val env 0 (n * 1 + 0) = n + 1 / 2 := fun n hn => by
      obtain ⟨e, hat⟩ := exists_atPoint idealCsFunction_spec pre b.toCore env (block_lt (N := 2) hn Nat.one_pos)
      rw [(hat.out idealCsFunction_spec pre b.toCore (block_lt (N := 2) hn Nat.one_pos)).2 0 Nat.one_pos, ← hX n hn]
      exact hat.x 0 Nat.one_pos
    have h : ∀ v ∈ s.eq.vals env, v = 0 := by
      refine (Scheme.eq_zero_iff pre b env).mpr ⟨fun c hc i hi => ?_, fun n hn i hi => ?_, fun h => by cases h⟩
      · obtain ⟨e, hat⟩ := exists_atPoint idealCsFunction_spec pre b.toCore env hc
        have o := hat.out idealCsFunction_spec pre b.toCore hc
        rw [o.1 i hi]
        refine (ode_residual freshI 1 _ e).mpr (fun i hi => ?_) i hi 0 Nat.one_pos
        have h1 := hat.xdot i hi
        have h2 := hat.p 0 Nat.one_pos
        rw [b.Kd] at h1
        rw [b.p] at h2
        exact h1.trans h2.symm
      · have hn : n < 2 := hn
        rw [b.cont env i n hn]
        simp only [Finset.sum_range_one, hB]
        interval_cases n <;> norm_num [env, nd, f0, f1]
    obtain ⟨env', sv, h'⟩ := k2 env h
    obtain ⟨-, -, -, -, -, vq⟩ := hval env env' sv
    refine ⟨env', h', ?_, ?_, ?_, ?_⟩
    · rw [sv.x 2 (by omega) 0 Nat.one_pos, b.x]
      norm_num [MXExpr.sym, env, f0, f4]
    · refine (sv.p 0 (by rw [hN, hM]; omega) 0 Nat.one_pos).trans ?_
      rw [b.p]
      norm_num [MXExpr.sym, env, f0, f4]
    · refine (sv.p 1 (by rw [hN, hM]; omega) 0 Nat.one_pos).trans ?_
      rw [b.p]
      norm_num [MXExpr.sym, env, f0, f4]
    · rw [vq 2 (by omega) 0 Nat.one_pos, b.q env 0 1 (by simp), b.q env 0 0 (by simp), b.q_zero]
      have q0 := hq 0 (by omega)
      have q1 := hq 1 (by omega)
      simp only [Finset.sum_range_one, hB, List.length_singleton, mul_one, add_zero] at q0 q1 ⊢
      rw [q0, q1]
      norm_num [nd]
  · obtain ⟨env, sv, h⟩ := k1 env' h'
    obtain ⟨-, -, -, -, -, vq⟩ := hval env env' sv
    exact ⟨env, h, (sv.x 2 (by omega) 0 Nat.one_pos).symm, (vq 2 (by omega) 0 Nat.one_pos).symm⟩

end CE
