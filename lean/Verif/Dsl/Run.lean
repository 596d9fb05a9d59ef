import Verif.Dsl.Sim
/-!
# Running the tree
-/
namespace Nbdl.Dsl

variable {σ V : Type}

/-- The names of the identities in scope refer to the same objects. -/
def Rel (env : Env Nat V) (ws : WS) (cenv : CEnv V) : Prop :=
  ∀ n v, env n = some v → ∃ x, ws.find n = some x ∧ cenv x = some v

/-- Identities from `lo` on are not in scope. -/
def EnvBelow (lo : Nat) (env : Env Nat V) : Prop := ∀ n, lo ≤ n → env n = none

/-- Names with numbers below `c` keep their object. -/
def CExt (c : Nat) (a b : CEnv V) : Prop := ∀ x : Name, x.n < c → b x = a x

theorem CExt.refl (c : Nat) (a : CEnv V) : CExt c a a := fun _ _ => rfl

theorem CExt.trans {c d : Nat} {a b e : CEnv V} (h1 : CExt c a b) (h2 : CExt d b e) (h : c ≤ d) : CExt c a e :=
  fun x hx => (h2 x (by omega)).trans (h1 x hx)

theorem EnvBelow.mono {a b : Nat} {env : Env Nat V} (h : EnvBelow a env) (hab : a ≤ b) : EnvBelow b env :=
  fun n hn => h n (by omega)

theorem EnvBelow.set {a b r : Nat} {env : Env Nat V} {v : V} (h : EnvBelow a env) (h1 : a ≤ r) (h2 : r < b) :
    EnvBelow b (env.set r v) := by
  intro n hn
  have : n ≠ r := by omega
  simp only [Env.set, if_neg this]
  exact h n (by omega)

theorem Rel.keep {lo : Nat} {env : Env Nat V} {ws ws' : WS} {cenv cenv' : CEnv V} (h : Rel env ws cenv)
    (hb : Bound ws) (he : EnvBelow lo env) (hm : MapExt lo ws ws') (hc : CExt ws.cnt cenv cenv') :
    Rel env ws' cenv' := by
  intro n v hn
  have hlt : n < lo := by
    rcases Nat.lt_or_ge n lo with h | h
    · exact h
    · simp [he n h] at hn
  obtain ⟨x, hx, hv⟩ := h n v hn
  exact ⟨x, by rw [hm n hlt, hx], by rw [hc x (hb.find hx), hv]⟩

theorem cext_set (cenv : CEnv V) (c : Nat) (k : Kind) (v : V) : CExt c cenv (cenv.set ⟨k, c⟩ v) := by
  intro x hx
  have : x ≠ ⟨k, c⟩ := by rintro rfl; simp at hx
  simp [Env.set, this]

theorem Rel.fresh {env : Env Nat V} {ws : WS} {cenv : CEnv V} (h : Rel env ws cenv) (hb : Bound ws)
    (r : Nat) (k : Kind) (v : V) :
    Rel (env.set r v) (ws.fresh r k).2 (cenv.set (ws.fresh r k).1 v) := by
  intro n u hn
  by_cases hnr : n = r
  · subst hnr
    simp [Env.set] at hn
    subst hn
    exact ⟨_, fresh_find_self ws n k, by simp [Env.set, fresh_name]⟩
  · simp only [Env.set, if_neg hnr] at hn
    obtain ⟨x, hx, hv⟩ := h n u hn
    refine ⟨x, by rw [fresh_find_ne ws r k hnr, hx], ?_⟩
    rw [fresh_name, cext_set cenv ws.cnt k v x (hb.find hx), hv]

theorem evalC_ast (w : World σ V) {env : Env Nat V} {ws : WS} {cenv : CEnv V} (h : Rel env ws cenv) :
    ∀ (v : Val) (e : CExpr) (x : V), astExpr ws v = some e → evalVal w env v = some x → evalC w cenv e = some x
  | .id n, e, x, ha, hv => by
    simp only [astExpr, Option.map_eq_some_iff] at ha
    obtain ⟨y, hy, rfl⟩ := ha
    simp only [evalVal] at hv
    obtain ⟨z, hz, hzv⟩ := h n x hv
    rw [hy] at hz
    cases hz
    simpa [evalC] using hzv
  | .lit (.int i), e, x, ha, hv => by
    simp only [astExpr, Option.some.injEq] at ha
    subst ha
    simpa [evalC, evalVal] using hv
  | .lit (.str s), e, x, ha, hv => by
    simp only [astExpr, Option.some.injEq] at ha
    subst ha
    simpa [evalC, evalVal] using hv
  | .cexpr t, e, x, ha, hv => by
    simp only [astExpr] at ha
    split at ha
    · simp at ha
    · simp only [Option.some.injEq] at ha
      subst ha
      simpa [evalC, evalVal] using hv
  | .const v, e, x, ha, hv => by
    simp only [astExpr, Option.map_eq_some_iff] at ha
    obtain ⟨e', he, rfl⟩ := ha
    simp only [evalVal, Option.map_eq_some_iff] at hv
    obtain ⟨x', hx, rfl⟩ := hv
    simp [evalC, evalC_ast w h v e' x' he hx]
  | .member _, e, x, ha, hv => by simp [astExpr] at ha
  | .unit, e, x, ha, hv => by simp [astExpr] at ha

theorem evalCs_ast (w : World σ V) {env : Env Nat V} {ws : WS} {cenv : CEnv V} (h : Rel env ws cenv) :
    ∀ (vs : List Val) (es : List CExpr) (xs : List V), astExprs ws vs = some es → evalVals w env vs = some xs →
      evalCs w cenv es = some xs
  | [], es, xs, ha, hv => by
    simp only [astExprs, Option.some.injEq] at ha
    simp only [evalVals, Option.some.injEq] at hv
    subst ha hv
    rfl
  | v :: vs, es, xs, ha, hv => by
    simp only [astExprs] at ha
    rcases he : astExpr ws v with - | e
    · simp [he] at ha
    rcases hes : astExprs ws vs with - | es'
    · simp [he, hes] at ha
    simp only [he, hes, Option.some.injEq] at ha
    simp only [evalVals] at hv
    rcases hx : evalVal w env v with - | x
    · simp [hx] at hv
    rcases hxs : evalVals w env vs with - | xs'
    · simp [hx, hxs] at hv
    simp only [hx, hxs, Option.some.injEq] at hv
    subst ha hv
    simp [evalCs, evalC_ast w h v e x he hx, evalCs_ast w h vs es' xs' hes hxs]

theorem evalCKey_ast (w : World σ V) {env : Env Nat V} {ws : WS} {cenv : CEnv V} (h : Rel env ws cenv)
    (k : Option Val) (e : Option CExpr) (x : Option V) (ha : astKey ws k = some e)
    (hv : evalKey w env k = some x) : evalCKey w cenv e = some x := by
  rcases k with - | v
  · simp only [astKey, Option.some.injEq] at ha
    simp only [evalKey, Option.some.injEq] at hv
    subst ha hv
    rfl
  · by_cases hu : v = .unit
    · subst hu
      simp only [astKey, Option.some.injEq] at ha
      simp only [evalKey, Option.some.injEq] at hv
      subst ha hv
      rfl
    · have h1 : astKey ws (some v) = (astExpr ws v).map some := by
        cases v <;> first | rfl | exact absurd rfl hu
      have h2 : evalKey w env (some v) = (evalVal w env v).map some := by
        cases v <;> first | rfl | exact absurd rfl hu
      rw [h1, Option.map_eq_some_iff] at ha
      rw [h2, Option.map_eq_some_iff] at hv
      obtain ⟨e', he, rfl⟩ := ha
      obtain ⟨x', hx, rfl⟩ := hv
      simp [evalCKey, evalC_ast w h v e' x' he hx]

theorem execStmts_append (w : World σ V) (a b : List CStmt) (env : CEnv V) (s : σ) :
    execStmts w env s (a ++ b) = (execStmts w env s a).bind fun r => execStmts w r.1 r.2 b := by
  induction a generalizing env s with
  | nil => simp [execStmts]
  | cons x xs ih =>
    simp only [List.cons_append, execStmts]
    rcases execStmt w env s x with - | ⟨env', s'⟩ <;> simp [ih]

theorem execStmts_one (w : World σ V) (c : CStmt) (env : CEnv V) (s : σ) :
    execStmts w env s [c] = execStmt w env s c := by
  simp only [execStmts]
  rcases execStmt w env s c with - | ⟨env', s'⟩ <;> simp

theorem positions_lt (p : Text → Bool) (ts : List Text) (i j : Nat) (h : j ∈ positions p i ts) :
    i ≤ j ∧ j < i + ts.length := by
  induction ts generalizing i with
  | nil => simp [positions] at h
  | cons t ts ih =>
    simp only [positions] at h
    split at h
    · rcases List.mem_cons.1 h with rfl | h
      · simp
      · have := ih _ h; simp; omega
    · have := ih _ h; simp; omega

theorem overloadChoice_lt (w : World σ V) (v : V) (ts : List Text) (i : Nat)
    (h : overloadChoice w v ts = some i) : i < ts.length := by
  have key : ∀ p, i ∈ positions p 0 ts → i < ts.length := fun p hp => by
    have := positions_lt p ts 0 i hp; omega
  simp only [overloadChoice] at h
  split at h
  · rename_i j hj
    simp only [Option.some.injEq] at h
    subst h
    exact key _ (by rw [hj]; simp)
  · simp at h
  · split at h
    · rename_i j hj
      simp only [Option.some.injEq] at h
      subst h
      exact key _ (by rw [hj]; simp)
    · simp at h

theorem astOverload_type {ws ws' : WS} {o : Overload} {l : Lambda} (h : astOverload ws o = some (l, ws')) :
    l.type = o.type := by
  rcases o with ⟨t, a, b⟩
  simp only [astOverload] at h
  rcases hb : astOps (ws.fresh a .arg).2 b with - | ⟨b', ws1⟩
  · simp [hb] at h
  · simp only [hb, Option.some.injEq, Prod.mk.injEq] at h
    rw [← h.1]; rfl

theorem astOverloads_types : ∀ (os : List Overload) (ws ws' : WS) (ls : List Lambda),
    astOverloads ws os = some (ls, ws') → ls.map Lambda.type = os.map Overload.type
  | [], ws, ws', ls, h => by
    simp only [astOverloads, Option.some.injEq, Prod.mk.injEq] at h
    rw [← h.1]; rfl
  | o :: os, ws, ws', ls, h => by
    simp only [astOverloads] at h
    rcases ht : astOverload ws o with - | ⟨l, ws1⟩
    · simp [ht] at h
    rcases hu : astOverloads ws1 os with - | ⟨ls2, ws2⟩
    · simp [ht, hu] at h
    simp only [ht, hu, Option.some.injEq, Prod.mk.injEq] at h
    rw [← h.1]
    simp [astOverload_type ht, astOverloads_types os ws1 ws2 ls2 hu]

theorem setRes_below {lo hi r : Nat} {env : Env Nat V} {v : V} (u : Bool) (h : EnvBelow lo env) (h1 : lo ≤ r)
    (h2 : r < hi) : EnvBelow hi (setRes env u r v) := by
  cases u
  · exact h.set h1 h2
  · exact h.mono (by omega)

theorem setRes_rel {env : Env Nat V} {ws : WS} {cenv : CEnv V} (h : Rel env ws cenv) (hb : Bound ws)
    (u : Bool) (r : Nat) (v : V) :
    Rel (setRes env u r v) (resName ws u r).2 (Env.setOpt cenv (resName ws u r).1 v) := by
  cases u
  · exact h.fresh hb r .result v
  · exact h

theorem setOpt_ext (cenv : CEnv V) (ws : WS) (u : Bool) (r : Nat) (v : V) :
    CExt ws.cnt cenv (Env.setOpt cenv (resName ws u r).1 v) := by
  cases u
  · exact cext_set cenv ws.cnt .result v
  · exact CExt.refl _ _

theorem astExpr_res (ws : WS) (u : Bool) (r : Nat) (v : Val) (h : v.under r) :
    astExpr (resName ws u r).2 v = astExpr ws v := by
  cases u
  · exact astExpr_fresh ws r .result v h
  · rfl

theorem astExprs_res (ws : WS) (u : Bool) (r : Nat) (vs : List Val) (h : ∀ v ∈ vs, v.under r) :
    astExprs (resName ws u r).2 vs = astExprs ws vs := by
  cases u
  · exact astExprs_fresh ws r .result vs h
  · rfl

theorem execOp_get (w : World σ V) (env : Env Nat V) (s : σ) (r : Nat) (o : Val) (k : Option Val)
    (hm : ∀ m, k ≠ some (.member m)) {env' : Env Nat V} {s' : σ}
    (h : execOp w env s (.get r o k) = some (env', s')) :
    ∃ x kx, evalVal w env o = some x ∧ evalKey w env k = some kx ∧ env' = env.set r (w.get s x kx) ∧ s' = s := by
  have h2 : execOp w env s (.get r o k) = (match evalVal w env o with
      | none => none
      | some o =>
        match evalKey w env k with
        | none => none
        | some k => some (env.set r (w.get s o k), s)) := by
    rcases k with - | v
    · simp only [execOp]; rfl
    · cases v <;> first | (exact absurd rfl (hm _)) | (simp only [execOp]; rfl)
  rw [h2] at h
  rcases hx : evalVal w env o with - | x
  · simp [hx] at h
  rcases hk : evalKey w env k with - | kx
  · simp [hx, hk] at h
  simp only [hx, hk, Option.some.injEq, Prod.mk.injEq] at h
  exact ⟨x, kx, rfl, rfl, h.1.symm, h.2.symm⟩

theorem execOp_visit (w : World σ V) (env : Env Nat V) (s : σ) (r : Nat) (u : Bool) (f : Val) (as : List Val)
    (hm : ∀ m, f ≠ .member m) {env' : Env Nat V} {s' : σ}
    (h : execOp w env s (.visit r u f as) = some (env', s')) :
    ∃ x xs, evalVal w env f = some x ∧ evalVals w env as = some xs ∧
      env' = setRes env u r (w.call s x xs).2 ∧ s' = (w.call s x xs).1 := by
  have h2 : execOp w env s (.visit r u f as) = (match evalVal w env f with
      | none => none
      | some f =>
        match evalVals w env as with
        | none => none
        | some xs => some (setRes env u r (w.call s f xs).2, (w.call s f xs).1)) := by
    cases f <;> first | (exact absurd rfl (hm _)) | (simp only [execOp]; rfl)
  rw [h2] at h
  rcases hx : evalVal w env f with - | x
  · simp [hx] at h
  rcases hk : evalVals w env as with - | xs
  · simp [hx, hk] at h
  simp only [hx, hk, Option.some.injEq, Prod.mk.injEq] at h
  exact ⟨x, xs, rfl, rfl, h.1.symm, h.2.symm⟩

theorem execOps_if (w : World σ V) (env : Env Nat V) (s : σ) (c : Val) (t e : List Op) :
    execOps w env s [.matchIf c t e] = execOp w env s (.matchIf c t e) := by
  rcases h : execOp w env s (.matchIf c t e) with - | r <;> simp [execOps, h]

/-- The outcome of the comparison. -/
def Sim (w : World σ V) (hi : Nat) (ws ws' : WS) (ss : List CStmt) (cenv : CEnv V) (s : σ) (env' : Env Nat V)
    (s' : σ) : Prop :=
  ∃ cenv', execStmts w cenv s ss = some (cenv', s') ∧ Rel env' ws' cenv' ∧ CExt ws.cnt cenv cenv' ∧
    EnvBelow hi env'

mutual
theorem op_sim (w : World σ V) : ∀ (o : Op) (lo hi : Nat) (ws ws' : WS) (ss : List CStmt) (env env' : Env Nat V)
    (s s' : σ) (cenv : CEnv V), wfOp lo hi o → Bound ws → EnvBelow lo env → Rel env ws cenv →
    astOp ws o = some (ss, ws') → execOp w env s o = some (env', s') → Sim w hi ws ws' ss cenv s env' s'
  | .pure, lo, hi, ws, ws', ss, env, env', s, s', cenv, hw, hb, he, hr, ha, hx => by
    simp only [astOp, Option.some.injEq, Prod.mk.injEq] at ha
    simp only [execOp, Option.some.injEq, Prod.mk.injEq] at hx
    obtain ⟨rfl, rfl⟩ := ha
    obtain ⟨rfl, rfl⟩ := hx
    exact ⟨cenv, rfl, hr, CExt.refl _ _, he.mono hw⟩
  | .const _, lo, hi, ws, ws', ss, env, env', s, s', cenv, hw, hb, he, hr, ha, hx => by simp [astOp] at ha
  | .empty, lo, hi, ws, ws', ss, env, env', s, s', cenv, hw, hb, he, hr, ha, hx => by simp [astOp] at ha
  | .discard, lo, hi, ws, ws', ss, env, env', s, s', cenv, hw, hb, he, hr, ha, hx => by
    simp only [astOp, Option.some.injEq, Prod.mk.injEq] at ha
    simp only [execOp, Option.some.injEq, Prod.mk.injEq] at hx
    obtain ⟨rfl, rfl⟩ := ha
    obtain ⟨rfl, rfl⟩ := hx
    exact ⟨cenv, rfl, hr, CExt.refl _ _, he.mono hw⟩
  | .noop v, lo, hi, ws, ws', ss, env, env', s, s', cenv, hw, hb, he, hr, ha, hx => by
    simp only [astOp, Option.map_eq_some_iff, Prod.mk.injEq] at ha
    simp only [execOp, Option.map_eq_some_iff, Prod.mk.injEq] at hx
    obtain ⟨e, hae, rfl, rfl⟩ := ha
    obtain ⟨x, hxe, rfl, rfl⟩ := hx
    refine ⟨cenv, ?_, hr, CExt.refl _ _, he.mono hw⟩
    simp [execStmts_one, execStmt, evalC_ast w hr v e x hae hxe]
  | .get r o k, lo, hi, ws, ws', ss, env, env', s, s', cenv, hw, hb, he, hr, ha, hx => by
    simp only [wfOp] at hw
    obtain ⟨h1, h2, h3, h4⟩ := hw
    obtain ⟨rfl, e, hae, ⟨m, rfl, rfl⟩ | ⟨hm, ke, hke, rfl⟩⟩ := astOp_get ws r o k ha
    · rw [astExpr_fresh ws r .get o h3] at hae
      simp only [execOp] at hx
      rcases hv : evalVal w env o with - | x
      · simp [hv] at hx
      simp only [hv, Option.some.injEq, Prod.mk.injEq] at hx
      obtain ⟨rfl, rfl⟩ := hx
      refine ⟨cenv.set (ws.fresh r .get).1 (w.member s x m), ?_, hr.fresh hb r .get _,
        cext_set cenv ws.cnt .get _, he.set h1 h2⟩
      simp [execStmts_one, execStmt, evalC_ast w hr o e x hae hv]
    · rw [astExpr_fresh ws r .get o h3] at hae
      rw [astKey_fresh ws r .get k h4] at hke
      obtain ⟨x, kx, hv, hkx, rfl, rfl⟩ := execOp_get w env s r o k hm hx
      refine ⟨cenv.set (ws.fresh r .get).1 (w.get s' x kx), ?_, hr.fresh hb r .get _,
        cext_set cenv ws.cnt .get _, he.set h1 h2⟩
      simp [execStmts_one, execStmt, evalC_ast w hr o e x hae hv, evalCKey_ast w hr k ke kx hke hkx]
  | .visit r u f as, lo, hi, ws, ws', ss, env, env', s, s', cenv, hw, hb, he, hr, ha, hx => by
    simp only [wfOp] at hw
    obtain ⟨h1, h2, h3, h4⟩ := hw
    obtain ⟨rfl, ⟨m, rfl, o, es, hes, rfl⟩ | ⟨hm, e, es, hae, hes, rfl⟩⟩ := astOp_visit ws r u f as ha
    · rw [astExprs_res ws u r as h4] at hes
      simp only [execOp] at hx
      rcases hv : evalVals w env as with - | xs
      · simp [hv] at hx
      rcases xs with - | ⟨x, xs⟩
      · simp [hv] at hx
      simp only [hv, Option.some.injEq, Prod.mk.injEq] at hx
      obtain ⟨rfl, rfl⟩ := hx
      have hcs := evalCs_ast w hr as (o :: es) (x :: xs) hes hv
      simp only [evalCs] at hcs
      rcases hco : evalC w cenv o with - | y
      · simp [hco] at hcs
      rcases hcr : evalCs w cenv es with - | ys
      · simp [hco, hcr] at hcs
      simp [hco, hcr] at hcs
      obtain ⟨rfl, rfl⟩ := hcs
      refine ⟨_, ?_, setRes_rel hr hb u r _, setOpt_ext cenv ws u r _, setRes_below u he h1 h2⟩
      simp [execStmts_one, execStmt, hco, hcr]
    · rw [astExpr_res ws u r f h3] at hae
      rw [astExprs_res ws u r as h4] at hes
      obtain ⟨x, xs, hv, hvs, rfl, rfl⟩ := execOp_visit w env s r u f as hm hx
      refine ⟨_, ?_, setRes_rel hr hb u r _, setOpt_ext cenv ws u r _, setRes_below u he h1 h2⟩
      simp [execStmts_one, execStmt, evalC_ast w hr f e x hae hv, evalCs_ast w hr as es xs hes hvs]
  | .compose r k l p, lo, hi, ws, ws', ss, env, env', s, s', cenv, hw, hb, he, hr, ha, hx => by
    simp only [wfOp] at hw
    obtain ⟨h1, h2, h3, h4, h5⟩ := hw
    obtain ⟨rfl, ke, pe, le, hke, hpe, hle, rfl⟩ := astOp_compose ws r k l p ha
    rw [astKey_fresh ws r .result k h3] at hke
    rw [astExpr_fresh ws r .result p h5] at hpe
    rw [astExpr_fresh ws r .result l h4] at hle
    simp only [execOp] at hx
    rcases hk : evalKey w env k with - | kx
    · simp [hk] at hx
    rcases hp : evalVal w env p with - | px
    · simp [hk, hp] at hx
    rcases hl : evalVal w env l with - | lx
    · simp [hk, hp, hl] at hx
    simp only [hk, hp, hl, Option.some.injEq, Prod.mk.injEq] at hx
    obtain ⟨rfl, rfl⟩ := hx
    refine ⟨cenv.set (ws.fresh r .result).1 (w.compose s kx px lx).2, ?_, hr.fresh hb r .result _,
      cext_set cenv ws.cnt .result _, he.set h1 h2⟩
    simp [execStmts_one, execStmt, evalCKey_ast w hr k ke kx hke hk, evalC_ast w hr p pe px hpe hp,
      evalC_ast w hr l le lx hle hl]
  | .matchOp st k os, lo, hi, ws, ws', ss, env, env', s, s', cenv, hw, hb, he, hr, ha, hx => by
    simp only [wfOp] at hw
    obtain ⟨e, ke, ls, hae, hke, hls, hss⟩ := astOp_match ws st k os ha
    have hst := overloads_static os lo hi ws ws' ls hw hb hls
    simp only [execOp] at hx
    rcases hv : evalVal w env st with - | x
    · simp [hv] at hx
    rcases hk : evalKey w env k with - | kx
    · simp [hv, hk] at hx
    rcases hi' : overloadChoice w (w.matchStore s x kx).2 (os.map Overload.type) with - | i
    · simp [hv, hk, hi'] at hx
    simp only [hv, hk, hi', Option.map_eq_some_iff, Prod.mk.injEq] at hx
    obtain ⟨s2, hp, rfl, rfl⟩ := hx
    have hn := pick_sim w os lo hi ws ws' ls env cenv _ s2 _ i hw hb he hr hls hp
    have hty := astOverloads_types os ws ws' ls hls
    rw [← hty] at hi'
    refine ⟨cenv, ?_, hr.keep hb he hst.ext (CExt.refl _ _), CExt.refl _ _, he.mono hst.le⟩
    have hc := evalC_ast w hr st e x hae hv
    have hck := evalCKey_ast w hr k ke kx hke hk
    rcases hss with ⟨l, rfl, rfl⟩ | rfl
    · have hi0 : i = 0 := by
        have := overloadChoice_lt _ _ _ _ hi'
        simpa using this
      subst hi0
      simp only [List.map_cons, List.map_nil] at hi'
      simp only [execNth] at hn
      simp [execStmts_one, execStmt, hc, hck, hi', hn]
    · simp [execStmts_one, execStmt, hc, hck, hi', hn]
  | .matchIf c t e, lo, hi, ws, ws', ss, env, env', s, s', cenv, hw, hb, he, hr, ha, hx => by
    simp only [wfOp] at hw
    obtain ⟨⟨mid, h1, h2⟩, h3⟩ := hw
    rw [astOp_if] at ha
    rcases hc : astExpr ws c with - | ce
    · simp [hc] at ha
    rcases ht : astOps ws t with - | ⟨tt, ws1⟩
    · simp [hc, ht] at ha
    rcases hee : astElse ws1 e with - | ⟨ee, ws2⟩
    · simp [hc, ht, hee] at ha
    simp only [hc, ht, hee, Option.some.injEq, Prod.mk.injEq] at ha
    obtain ⟨rfl, rfl⟩ := ha
    have a := ops_static t lo mid ws ws1 tt h1 hb ht
    have b := else_static e mid hi ws1 ws2 ee h2 h3 a.bound hee
    have hr1 : Rel env ws1 cenv := hr.keep hb he a.ext (CExt.refl _ _)
    simp only [execOp] at hx
    rcases hv : evalVal w env c with - | x
    · simp [hv] at hx
    simp only [hv] at hx
    have hcv := evalC_ast w hr c ce x hc hv
    by_cases htr : w.truth s x = true
    · simp only [htr, if_true, Option.map_eq_some_iff, Prod.mk.injEq, Prod.exists] at hx
      obtain ⟨env2, s2, hxt, rfl, rfl⟩ := hx
      obtain ⟨cenv2, hr2, -, -, -⟩ := ops_sim w t lo mid ws ws1 tt env env2 s s2 cenv h1 hb he hr ht hxt
      refine ⟨cenv, ?_, (hr1.keep a.bound (he.mono a.le) b.ext (CExt.refl _ _)), CExt.refl _ _,
        he.mono (Nat.le_trans a.le b.le)⟩
      simp [execStmts_one, execStmt, hcv, htr, hr2]
    · simp only [htr, Bool.false_eq_true, if_false, Option.map_eq_some_iff, Prod.mk.injEq, Prod.exists] at hx
      obtain ⟨env2, s2, hxt, rfl, rfl⟩ := hx
      have := else_sim w e mid hi ws1 ws2 ee env env2 s s2 cenv h2 h3 a.bound (he.mono a.le) hr1 hee hxt
      refine ⟨cenv, ?_, (hr1.keep a.bound (he.mono a.le) b.ext (CExt.refl _ _)), CExt.refl _ _,
        he.mono (Nat.le_trans a.le b.le)⟩
      simp [execStmts_one, execStmt, hcv, htr, this]
  | .scope b, lo, hi, ws, ws', ss, env, env', s, s', cenv, hw, hb, he, hr, ha, hx => by
    simp only [wfOp] at hw
    simp only [astOp] at ha
    simp only [execOp, Option.map_eq_some_iff, Prod.mk.injEq, Prod.exists] at hx
    obtain ⟨env2, s2, hxb, rfl, rfl⟩ := hx
    have st := ops_static b lo hi ws ws' ss hw hb ha
    obtain ⟨cenv2, h1, -, h3, -⟩ := ops_sim w b lo hi ws ws' ss env env2 s s2 cenv hw hb he hr ha hxb
    exact ⟨cenv2, h1, hr.keep hb he st.ext h3, h3, he.mono st.le⟩

theorem ops_sim (w : World σ V) : ∀ (os : List Op) (lo hi : Nat) (ws ws' : WS) (ss : List CStmt)
    (env env' : Env Nat V) (s s' : σ) (cenv : CEnv V), wfOps lo hi os → Bound ws → EnvBelow lo env →
    Rel env ws cenv → astOps ws os = some (ss, ws') → execOps w env s os = some (env', s') →
    Sim w hi ws ws' ss cenv s env' s'
  | [], lo, hi, ws, ws', ss, env, env', s, s', cenv, hw, hb, he, hr, ha, hx => by
    simp only [astOps, Option.some.injEq, Prod.mk.injEq] at ha
    simp only [execOps, Option.some.injEq, Prod.mk.injEq] at hx
    obtain ⟨rfl, rfl⟩ := ha
    obtain ⟨rfl, rfl⟩ := hx
    exact ⟨cenv, rfl, hr, CExt.refl _ _, he.mono hw⟩
  | o :: os, lo, hi, ws, ws', ss, env, env', s, s', cenv, hw, hb, he, hr, ha, hx => by
    simp only [wfOps] at hw
    obtain ⟨mid, h1, h2⟩ := hw
    simp only [astOps] at ha
    rcases ht : astOp ws o with - | ⟨t, ws1⟩
    · simp [ht] at ha
    rcases hu : astOps ws1 os with - | ⟨u, ws2⟩
    · simp [ht, hu] at ha
    simp only [ht, hu, Option.some.injEq, Prod.mk.injEq] at ha
    obtain ⟨rfl, rfl⟩ := ha
    simp only [execOps] at hx
    rcases hxo : execOp w env s o with - | ⟨env1, s1⟩
    · simp [hxo] at hx
    simp only [hxo] at hx
    have a := op_static o lo mid ws ws1 t h1 hb ht
    obtain ⟨cenv1, x1, x2, x3, x4⟩ := op_sim w o lo mid ws ws1 t env env1 s s1 cenv h1 hb he hr ht hxo
    obtain ⟨cenv2, y1, y2, y3, y4⟩ := ops_sim w os mid hi ws1 ws2 u env1 env' s1 s' cenv1 h2 a.bound x4 x2 hu hx
    exact ⟨cenv2, by rw [execStmts_append, x1]; exact y1, y2, x3.trans y3 a.cnt, y4⟩

theorem else_sim (w : World σ V) : ∀ (os : List Op) (lo hi : Nat) (ws ws' : WS) (e : CElse)
    (env env' : Env Nat V) (s s' : σ) (cenv : CEnv V), wfOps lo hi os → elseOk os → Bound ws → EnvBelow lo env →
    Rel env ws cenv → astElse ws os = some (e, ws') → execOps w env s os = some (env', s') →
    execElse w cenv s e = some s'
  | [], lo, hi, ws, ws', e, env, env', s, s', cenv, hw, ho, hb, he, hr, ha, hx => by simp [astElse] at ha
  | o :: os, lo, hi, ws, ws', ee, env, env', s, s', cenv, hw, ho, hb, he, hr, ha, hx => by
    by_cases hif : o.isIf = false
    · rw [astElse_block ws o os hif] at ha
      simp only [Option.map_eq_some_iff, Prod.mk.injEq, Prod.exists] at ha
      obtain ⟨b, ws2, hbk, rfl, rfl⟩ := ha
      simp only [wfOps] at hw
      obtain ⟨mid, h1, h2⟩ := hw
      simp only [astOps] at hbk
      rcases ht : astOp ws o with - | ⟨t, ws1⟩
      · simp [ht] at hbk
      rcases hu : astOps ws1 os with - | ⟨u, ws3⟩
      · simp [ht, hu] at hbk
      simp only [ht, hu, Option.some.injEq, Prod.mk.injEq] at hbk
      obtain ⟨rfl, rfl⟩ := hbk
      simp only [execOps] at hx
      rcases hxo : execOp w env s o with - | ⟨env1, s1⟩
      · simp [hxo] at hx
      simp only [hxo] at hx
      have a := op_static o lo mid ws ws1 t h1 hb ht
      obtain ⟨cenv1, x1, x2, x3, x4⟩ := op_sim w o lo mid ws ws1 t env env1 s s1 cenv h1 hb he hr ht hxo
      obtain ⟨cenv2, y1, y2, y3, y4⟩ := ops_sim w os mid hi ws1 ws3 u env1 env' s1 s' cenv1 h2 a.bound x4 x2 hu hx
      simp [execElse, execStmts_append, x1, y1]
    · match o, hif with
      | .matchIf c t e, _ =>
        simp only [elseOk] at ho
        subst ho
        simp only [wfOps, wfOp] at hw
        obtain ⟨mid', ⟨⟨mid, h1, h2⟩, h3⟩, h4⟩ := hw
        rw [astElse_if] at ha
        rcases hc : astExpr ws c with - | ce
        · simp [hc] at ha
        rcases ht : astOps ws t with - | ⟨tt, ws1⟩
        · simp [hc, ht] at ha
        rcases hee : astElse ws1 e with - | ⟨e2, ws2⟩
        · simp [hc, ht, hee] at ha
        simp only [hc, ht, hee, Option.some.injEq, Prod.mk.injEq] at ha
        obtain ⟨rfl, rfl⟩ := ha
        have a := ops_static t lo mid ws ws1 tt h1 hb ht
        have hr1 : Rel env ws1 cenv := hr.keep hb he a.ext (CExt.refl _ _)
        rw [execOps_if] at hx
        simp only [execOp] at hx
        rcases hv : evalVal w env c with - | x
        · simp [hv] at hx
        simp only [hv] at hx
        have hcv := evalC_ast w hr c ce x hc hv
        by_cases htr : w.truth s x = true
        · simp only [htr, if_true, Option.map_eq_some_iff, Prod.mk.injEq, Prod.exists] at hx
          obtain ⟨env2, s2, hxt, rfl, rfl⟩ := hx
          obtain ⟨cenv2, hr2, -, -, -⟩ := ops_sim w t lo mid ws ws1 tt env env2 s s2 cenv h1 hb he hr ht hxt
          simp [execElse, hcv, htr, hr2]
        · simp only [htr, Bool.false_eq_true, if_false, Option.map_eq_some_iff, Prod.mk.injEq,
            Prod.exists] at hx
          obtain ⟨env2, s2, hxt, rfl, rfl⟩ := hx
          have := else_sim w e mid mid' ws1 ws2 e2 env env2 s s2 cenv h2 h3 a.bound (he.mono a.le) hr1 hee hxt
          simp [execElse, hcv, htr, this]

theorem pick_sim (w : World σ V) : ∀ (os : List Overload) (lo hi : Nat) (ws ws' : WS) (ls : List Lambda)
    (env : Env Nat V) (cenv : CEnv V) (s s' : σ) (v : V) (i : Nat), wfOverloads lo hi os → Bound ws →
    EnvBelow lo env → Rel env ws cenv → astOverloads ws os = some (ls, ws') →
    execPick w env s v i os = some s' → execNth w cenv s v i ls = some s'
  | [], lo, hi, ws, ws', ls, env, cenv, s, s', v, i, hw, hb, he, hr, ha, hx => by simp [execPick] at hx
  | .mk type a body :: os, lo, hi, ws, ws', ls, env, cenv, s, s', v, i, hw, hb, he, hr, ha, hx => by
    simp only [wfOverloads] at hw
    obtain ⟨mid, h1, h2, h3⟩ := hw
    simp only [astOverloads] at ha
    rcases ht : astOverload ws (.mk type a body) with - | ⟨l, ws1⟩
    · simp [ht] at ha
    rcases hu : astOverloads ws1 os with - | ⟨ls2, ws2⟩
    · simp [ht, hu] at ha
    simp only [ht, hu, Option.some.injEq, Prod.mk.injEq] at ha
    obtain ⟨rfl, rfl⟩ := ha
    have st := overload_static (.mk type a body) lo mid ws ws1 l ⟨h1, h2⟩ hb ht
    rcases i with - | i
    · simp only [astOverload] at ht
      rcases htb : astOps (ws.fresh a .arg).2 body with - | ⟨b, ws3⟩
      · simp [htb] at ht
      simp only [htb, Option.some.injEq, Prod.mk.injEq] at ht
      obtain ⟨rfl, rfl⟩ := ht
      simp only [execPick, Option.map_eq_some_iff, Prod.exists] at hx
      obtain ⟨env2, s2, hxb, rfl⟩ := hx
      obtain ⟨cenv2, x1, -, -, -⟩ := ops_sim w body (a + 1) mid _ _ b (env.set a v) env2 s s2 _ h2
        (fresh_bound hb a .arg) (he.set h1 (Nat.lt_succ_self a)) (hr.fresh hb a .arg v) htb hxb
      simp [execNth, execLambda, x1]
    · simp only [execPick] at hx
      simp only [execNth]
      exact pick_sim w os mid hi ws1 ws2 ls2 env cenv s s' v i h3 st.bound (he.mono st.le)
        (hr.keep hb he st.ext (CExt.refl _ _)) hu hx
end

end Nbdl.Dsl
