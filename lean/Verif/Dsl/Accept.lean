import Verif.Dsl.Whole
/-!
# Which functions are translated
-/
namespace Nbdl.Dsl

/-! ### The table of names only grows -/

/-- Every identity that has a name keeps having one. -/
def Grows (ws ws' : WS) : Prop := ∀ i, (ws.find i).isSome → (ws'.find i).isSome

theorem Grows.refl (ws : WS) : Grows ws ws := fun _ h => h

theorem Grows.trans {a b c : WS} (h1 : Grows a b) (h2 : Grows b c) : Grows a c := fun i h => h2 i (h1 i h)

theorem grows_fresh (ws : WS) (r : Nat) (k : Kind) : Grows ws (ws.fresh r k).2 := by
  intro i h
  by_cases hi : i = r
  · subst hi; rw [fresh_find_self]; rfl
  · rw [fresh_find_ne ws r k hi]; exact h

theorem grows_res (ws : WS) (u : Bool) (r : Nat) : Grows ws (resName ws u r).2 := by
  cases u
  · exact grows_fresh ws r .result
  · exact Grows.refl ws

mutual
theorem op_grows : ∀ (o : Op) (ws ws' : WS) (ss : List CStmt), astOp ws o = some (ss, ws') → Grows ws ws'
  | .pure, ws, ws', ss, h => by
    simp only [astOp, Option.some.injEq, Prod.mk.injEq] at h; rw [← h.2]; exact Grows.refl _
  | .const _, ws, ws', ss, h => by simp [astOp] at h
  | .empty, ws, ws', ss, h => by simp [astOp] at h
  | .get r o k, ws, ws', ss, h => by
    rw [(astOp_get ws r o k h).1]; exact grows_fresh _ _ _
  | .visit r u f as, ws, ws', ss, h => by
    rw [(astOp_visit ws r u f as h).1]; exact grows_res _ _ _
  | .compose r k l p, ws, ws', ss, h => by
    rw [(astOp_compose ws r k l p h).1]; exact grows_fresh _ _ _
  | .discard, ws, ws', ss, h => by
    simp only [astOp, Option.some.injEq, Prod.mk.injEq] at h; rw [← h.2]; exact Grows.refl _
  | .noop v, ws, ws', ss, h => by
    simp only [astOp, Option.map_eq_some_iff, Prod.mk.injEq] at h
    obtain ⟨e, -, -, rfl⟩ := h; exact Grows.refl _
  | .matchOp st k os, ws, ws', ss, h => by
    obtain ⟨e, ke, ls, -, -, h3, -⟩ := astOp_match ws st k os h
    exact overloads_grows os ws ws' ls h3
  | .matchIf c t e, ws, ws', ss, h => by
    rw [astOp_if] at h
    rcases hc : astExpr ws c with - | ce
    · simp [hc] at h
    rcases ht : astOps ws t with - | ⟨tt, ws1⟩
    · simp [hc, ht] at h
    rcases hee : astElse ws1 e with - | ⟨ee, ws2⟩
    · simp [hc, ht, hee] at h
    simp only [hc, ht, hee, Option.some.injEq, Prod.mk.injEq] at h
    rw [← h.2]
    exact (ops_grows t ws ws1 tt ht).trans (else_grows e ws1 ws2 ee hee)
  | .scope b, ws, ws', ss, h => by
    simp only [astOp] at h
    exact ops_grows b ws ws' ss h

theorem ops_grows : ∀ (os : List Op) (ws ws' : WS) (ss : List CStmt), astOps ws os = some (ss, ws') → Grows ws ws'
  | [], ws, ws', ss, h => by
    simp only [astOps, Option.some.injEq, Prod.mk.injEq] at h; rw [← h.2]; exact Grows.refl _
  | o :: os, ws, ws', ss, h => by
    simp only [astOps] at h
    rcases ht : astOp ws o with - | ⟨t, ws1⟩
    · simp [ht] at h
    rcases hu : astOps ws1 os with - | ⟨u, ws2⟩
    · simp [ht, hu] at h
    simp only [ht, hu, Option.some.injEq, Prod.mk.injEq] at h
    rw [← h.2]
    exact (op_grows o ws ws1 t ht).trans (ops_grows os ws1 ws2 u hu)

theorem else_grows : ∀ (os : List Op) (ws ws' : WS) (e : CElse), astElse ws os = some (e, ws') → Grows ws ws'
  | [], ws, ws', e, h => by simp [astElse] at h
  | .matchIf c t e :: os, ws, ws', ee, h => by
    simp only [astElse] at h
    rcases hc : astExpr ws c with - | ce
    · simp [hc] at h
    rcases ht : astOps ws t with - | ⟨tt, ws1⟩
    · simp [hc, ht] at h
    rcases hee : astElse ws1 e with - | ⟨e2, ws2⟩
    · simp [hc, ht, hee] at h
    simp only [hc, ht, hee, Option.some.injEq, Prod.mk.injEq] at h
    rw [← h.2]
    exact (ops_grows t ws ws1 tt ht).trans (else_grows e ws1 ws2 e2 hee)
  | .pure :: os, ws, ws', ee, h => blk .pure os ws ws' ee rfl (op_grows .pure ws) (fun w => ops_grows os w) h
  | .const v :: os, ws, ws', ee, h => blk (.const v) os ws ws' ee rfl (op_grows (.const v) ws) (fun w => ops_grows os w) h
  | .empty :: os, ws, ws', ee, h => blk .empty os ws ws' ee rfl (op_grows .empty ws) (fun w => ops_grows os w) h
  | .get r o k :: os, ws, ws', ee, h =>
    blk (.get r o k) os ws ws' ee rfl (op_grows (.get r o k) ws) (fun w => ops_grows os w) h
  | .visit r u f as :: os, ws, ws', ee, h =>
    blk (.visit r u f as) os ws ws' ee rfl (op_grows (.visit r u f as) ws) (fun w => ops_grows os w) h
  | .compose r k l p :: os, ws, ws', ee, h =>
    blk (.compose r k l p) os ws ws' ee rfl (op_grows (.compose r k l p) ws) (fun w => ops_grows os w) h
  | .discard :: os, ws, ws', ee, h => blk .discard os ws ws' ee rfl (op_grows .discard ws) (fun w => ops_grows os w) h
  | .noop v :: os, ws, ws', ee, h => blk (.noop v) os ws ws' ee rfl (op_grows (.noop v) ws) (fun w => ops_grows os w) h
  | .matchOp s k ls :: os, ws, ws', ee, h =>
    blk (.matchOp s k ls) os ws ws' ee rfl (op_grows (.matchOp s k ls) ws) (fun w => ops_grows os w) h
  | .scope b :: os, ws, ws', ee, h =>
    blk (.scope b) os ws ws' ee rfl (op_grows (.scope b) ws) (fun w => ops_grows os w) h
where
  blk (o : Op) (os : List Op) (ws ws' : WS) (e : CElse) (ho : o.isIf = false)
      (h1 : ∀ (ws' : WS) (ss : List CStmt), astOp ws o = some (ss, ws') → Grows ws ws')
      (h2 : ∀ (ws ws' : WS) (ss : List CStmt), astOps ws os = some (ss, ws') → Grows ws ws')
      (h : astElse ws (o :: os) = some (e, ws')) : Grows ws ws' := by
    rw [astElse_block ws o os ho] at h
    simp only [Option.map_eq_some_iff, Prod.mk.injEq, Prod.exists] at h
    obtain ⟨b, ws2, hbk, rfl, rfl⟩ := h
    simp only [astOps] at hbk
    rcases ht : astOp ws o with - | ⟨t, ws1⟩
    · simp [ht] at hbk
    rcases hu : astOps ws1 os with - | ⟨u, ws3⟩
    · simp [ht, hu] at hbk
    simp only [ht, hu, Option.some.injEq, Prod.mk.injEq] at hbk
    rw [← hbk.2]
    exact (h1 ws1 t ht).trans (h2 ws1 ws3 u hu)

theorem overloads_grows : ∀ (os : List Overload) (ws ws' : WS) (ls : List Lambda),
    astOverloads ws os = some (ls, ws') → Grows ws ws'
  | [], ws, ws', ls, h => by
    simp only [astOverloads, Option.some.injEq, Prod.mk.injEq] at h; rw [← h.2]; exact Grows.refl _
  | .mk type a body :: os, ws, ws', ls, h => by
    simp only [astOverloads, astOverload] at h
    rcases ht : astOps (ws.fresh a .arg).2 body with - | ⟨b, ws1⟩
    · simp [ht] at h
    rcases hu : astOverloads ws1 os with - | ⟨u, ws2⟩
    · simp [ht, hu] at h
    simp only [ht, hu, Option.some.injEq, Prod.mk.injEq] at h
    rw [← h.2]
    exact ((grows_fresh ws a .arg).trans (ops_grows body _ ws1 b ht)).trans (overloads_grows os ws1 ws2 u hu)
end

/-! ### Blocks that are translated -/

/-- The identities `S` have names. -/
def Cov (S : Nat → Prop) (ws : WS) : Prop := ∀ i, S i → (ws.find i).isSome

theorem Cov.grows {S : Nat → Prop} {a b : WS} (h : Cov S a) (hg : Grows a b) : Cov S b := fun i hi => hg i (h i hi)

/-- One more identity. -/
def plus (S : Nat → Prop) (r : Nat) : Nat → Prop := fun i => S i ∨ i = r

theorem Cov.fresh {S : Nat → Prop} {ws : WS} (h : Cov S ws) (r : Nat) (k : Kind) : Cov (plus S r) (ws.fresh r k).2 := by
  rintro i (hi | rfl)
  · exact h.grows (grows_fresh ws r k) i hi
  · rw [fresh_find_self]; rfl

/-- Translated wherever the identities `S` have names. -/
def Tr (S : Nat → Prop) (ops : List Op) : Prop := ∀ ws, Cov S ws → ∃ r, astOps ws ops = some r

/-- Not translated anywhere. -/
def NoTr (ops : List Op) : Prop := ∀ ws, astOps ws ops = none

/-- The value can be written. -/
def Vok (S : Nat → Prop) : Val → Prop
  | .id i => S i
  | .lit _ => True
  | .cexpr t => t ≠ []
  | _ => False

theorem Vok.mono {S S' : Nat → Prop} (h : ∀ i, S i → S' i) : ∀ {v : Val}, Vok S v → Vok S' v
  | .id i, hv => h i hv
  | .lit _, _ => trivial
  | .cexpr _, hv => hv
  | .const _, hv => hv.elim
  | .member _, hv => hv.elim
  | .unit, hv => hv.elim

theorem Vok.expr {S : Nat → Prop} {ws : WS} (hc : Cov S ws) : ∀ {v : Val}, Vok S v → ∃ e, astExpr ws v = some e
  | .id i, hv => by
    obtain ⟨x, hx⟩ := Option.isSome_iff_exists.1 (hc i hv)
    exact ⟨.name x, by simp [astExpr, hx]⟩
  | .lit (.int i), _ => ⟨.int i, rfl⟩
  | .lit (.str s), _ => ⟨.str s, rfl⟩
  | .cexpr t, hv => ⟨.raw t, by
      have : t.isEmpty = false := by cases t with
        | nil => exact absurd rfl hv
        | cons => rfl
      simp [astExpr, this]⟩
  | .const _, hv => hv.elim
  | .member _, hv => hv.elim
  | .unit, hv => hv.elim

theorem Vok.key {S : Nat → Prop} {ws : WS} (hc : Cov S ws) {v : Val} (hv : Vok S v) :
    ∃ e, astKey ws (some v) = some e := by
  obtain ⟨e, he⟩ := hv.expr hc
  refine ⟨some e, ?_⟩
  cases v <;> first | exact hv.elim | simp [astKey, he]

theorem vok_exprs {S : Nat → Prop} {ws : WS} (hc : Cov S ws) : ∀ {vs : List Val}, (∀ v ∈ vs, Vok S v) →
    ∃ es, astExprs ws vs = some es ∧ es.length = vs.length
  | [], _ => ⟨[], rfl, rfl⟩
  | v :: vs, h => by
    obtain ⟨e, he⟩ := (h v (by simp)).expr hc
    obtain ⟨es, hes, hl⟩ := vok_exprs hc (vs := vs) fun u hu => h u (by simp [hu])
    exact ⟨e :: es, by simp [astExprs, he, hes], by simp [hl]⟩

theorem vok_not_member {S : Nat → Prop} {v : Val} (h : Vok S v) : ∀ m, v ≠ .member m := by
  rintro m rfl; exact h

/-- What happens to a block without terminator: the step succeeds and what it adds is translated, exactly
if `Q`. -/
def Outcome (S : Nat → Prop) (Q : Prop) (cur : List Op) (x : Option St) : Prop :=
  (Q → ∃ st' ops, x = some st' ∧ st'.cur = cur ++ ops ∧ TermLast ops ∧ Tr S ops) ∧
  (¬ Q → x = none ∨ ∃ st' ops, x = some st' ∧ st'.cur = cur ++ ops ∧ TermLast ops ∧ NoTr ops)

/-- The same for every block without terminator. -/
def Runs (S : Nat → Prop) (m : M) (Q : Prop) : Prop := ∀ st, NoTerms st.cur → Outcome S Q st.cur (m st)

/-- A continuation, for every value that can be written. -/
def RunsK (S : Nat → Prop) (k : Val → M) (Q : Prop) : Prop :=
  ∀ S' : Nat → Prop, (∀ i, S i → S' i) → ∀ v, Vok S' v → Runs S' (k v) Q

/-- A continuation for `len` values. -/
def RunsKs (S : Nat → Prop) (len : Nat) (k : List Val → M) (Q : Prop) : Prop :=
  ∀ S' : Nat → Prop, (∀ i, S i → S' i) → ∀ vs, (∀ v ∈ vs, Vok S' v) → vs.length = len → Runs S' (k vs) Q

theorem RunsK.mono {S S' : Nat → Prop} {k : Val → M} {Q : Prop} (h : RunsK S k Q) (hs : ∀ i, S i → S' i) :
    RunsK S' k Q := fun S2 h2 v hv => h S2 (fun i hi => h2 i (hs i hi)) v hv

theorem Outcome.congr {S : Nat → Prop} {Q Q' : Prop} {cur : List Op} {x : Option St} (h : Outcome S Q cur x)
    (hq : Q ↔ Q') : Outcome S Q' cur x := by
  rw [← propext hq]; exact h

theorem Runs.congr {S : Nat → Prop} {m : M} {Q Q' : Prop} (h : Runs S m Q) (hq : Q ↔ Q') : Runs S m Q' :=
  fun st hst => (h st hst).congr hq

theorem outcome_none {S : Nat → Prop} {cur : List Op} {Q : Prop} (h : ¬ Q) : Outcome S Q cur none :=
  ⟨fun hq => absurd hq h, fun _ => .inl rfl⟩

theorem runs_fail {S : Nat → Prop} {Q : Prop} (h : ¬ Q) : Runs S (fun _ => none) Q := fun _ _ => outcome_none h

theorem runs_close {S : Nat → Prop} {m : M} {Q : Prop} (h : Runs S m Q) : Runs S (M.then closePrev m) Q := by
  intro st hst
  simp only [M.then, closePrev_id hst, Option.bind_some]
  exact h st hst

theorem noTr_cons {o : Op} {ops : List Op} (h : NoTr ops) : NoTr (o :: ops) := by
  intro ws
  simp only [astOps]
  rcases astOp ws o with - | ⟨t, ws1⟩
  · rfl
  · simp [h ws1]

theorem noTr_head {o : Op} (h : ∀ ws, astOp ws o = none) (ops : List Op) : NoTr (o :: ops) := by
  intro ws
  simp [astOps, h ws]

theorem tr_cons {S S' : Nat → Prop} {o : Op} {ops : List Op}
    (ho : ∀ ws, Cov S ws → ∃ ss ws', astOp ws o = some (ss, ws') ∧ Cov S' ws') (h : Tr S' ops) : Tr S (o :: ops) := by
  intro ws hws
  obtain ⟨ss, ws', h1, h2⟩ := ho ws hws
  obtain ⟨r, hr⟩ := h ws' h2
  exact ⟨(ss ++ r.1, r.2), by simp [astOps, h1, hr]⟩

/-- An operation that is no terminator, then the rest. -/
theorem outcome_emit {S S' : Nat → Prop} {o : Op} {m : M} {Q : Prop} {st : St} (hst : NoTerms st.cur)
    (ho : o.isTerm = false) (hm : Runs S' m Q) (n : Nat)
    (htr : ∀ ws, Cov S ws → ∃ ss ws', astOp ws o = some (ss, ws') ∧ Cov S' ws') :
    Outcome S Q st.cur ((emit o { st with next := n }).bind m) := by
  rw [emit_ok (st := { st with next := n }) o hst, Option.bind_some]
  obtain ⟨h1, h2⟩ := hm ⟨st.cur ++ [o], n⟩ (hst.snoc ho)
  refine ⟨fun q => ?_, fun q => ?_⟩
  · obtain ⟨st', ops, a, b, c, d⟩ := h1 q
    exact ⟨st', o :: ops, a, by rw [b]; simp, c.cons ho, tr_cons htr d⟩
  · rcases h2 q with h | ⟨st', ops, a, b, c, d⟩
    · exact .inl h
    · exact .inr ⟨st', o :: ops, a, by rw [b]; simp, c.cons ho, noTr_cons d⟩

/-- The same if the operation is not translated. -/
theorem outcome_emit_bad {S S' : Nat → Prop} {o : Op} {m : M} {Q Q' : Prop} {st : St} (hst : NoTerms st.cur)
    (ho : o.isTerm = false) (hm : Runs S' m Q) (n : Nat) (hbad : ∀ ws, astOp ws o = none) (hq' : ¬ Q') :
    Outcome S Q' st.cur ((emit o { st with next := n }).bind m) := by
  rw [emit_ok (st := { st with next := n }) o hst, Option.bind_some]
  obtain ⟨h1, h2⟩ := hm ⟨st.cur ++ [o], n⟩ (hst.snoc ho)
  refine ⟨fun q => absurd q hq', fun _ => ?_⟩
  by_cases q : Q
  · obtain ⟨st', ops, a, b, c, d⟩ := h1 q
    exact .inr ⟨st', o :: ops, a, by rw [b]; simp, c.cons ho, noTr_head hbad ops⟩
  · rcases h2 q with h | ⟨st', ops, a, b, c, d⟩
    · exact .inl h
    · exact .inr ⟨st', o :: ops, a, by rw [b]; simp, c.cons ho, noTr_head hbad ops⟩

/-- A terminator alone. -/
theorem outcome_last {S : Nat → Prop} {o : Op} {Q : Prop} {st : St} (hst : NoTerms st.cur) (ho : o.isTerm = true)
    (n : Nat) (h1 : Q → Tr S [o]) (h2 : ¬ Q → NoTr [o]) :
    Outcome S Q st.cur (emit o { st with next := n }) := by
  rw [emit_ok (st := { st with next := n }) o hst]
  exact ⟨fun q => ⟨_, [o], rfl, rfl, ho, h1 q⟩, fun q => .inr ⟨_, [o], rfl, rfl, ho, h2 q⟩⟩

theorem tr_one {S : Nat → Prop} {o : Op} (h : ∀ ws, Cov S ws → ∃ r, astOp ws o = some r) : Tr S [o] := by
  intro ws hws
  obtain ⟨⟨ss, ws'⟩, hr⟩ := h ws hws
  exact ⟨(ss ++ [], ws'), by simp [astOps, hr]⟩

theorem outcome_region {S : Nat → Prop} {m : M} {Q : Prop} (h : Runs S m Q) (n : Nat) :
    (Q → ∃ body n', region m n = some (body, n') ∧ TermLast body ∧ Tr S body) ∧
    (¬ Q → region m n = none ∨ ∃ body n', region m n = some (body, n') ∧ TermLast body ∧ NoTr body) := by
  obtain ⟨h1, h2⟩ := h ⟨[], n⟩ NoTerms.nil
  refine ⟨fun q => ?_, fun q => ?_⟩
  · obtain ⟨st', ops, a, b, c, d⟩ := h1 q
    simp only [List.nil_append] at b
    subst b
    exact ⟨st'.cur, st'.next, by simp [region, a, c.ends], c, d⟩
  · rcases h2 q with a | ⟨st', ops, a, b, c, d⟩
    · exact .inl (by simp [region, a])
    · simp only [List.nil_append] at b
      subst b
      exact .inr ⟨st'.cur, st'.next, by simp [region, a, c.ends], c, d⟩

theorem astOp_match_one (ws : WS) (st : Val) (k : Option Val) (o : Overload) :
    astOp ws (.matchOp st k [o]) = match astExpr ws st with
      | none => none
      | some st =>
        match astKey ws k with
        | none => none
        | some k =>
          match astOverload ws o with
          | none => none
          | some (l, ws) => some ([.matchOne st k l], ws) := by
  simp only [astOp]; rfl

theorem astOp_match_many (ws : WS) (st : Val) (k : Option Val) (os : List Overload) {e : CExpr} {ke : Option CExpr}
    (he : astExpr ws st = some e) (hk : astKey ws k = some ke) :
    (astOp ws (.matchOp st k os)).isSome = (astOverloads ws os).isSome := by
  rcases os with - | ⟨o, - | ⟨p, os⟩⟩
  · simp [astOp, he, hk, astOverloads]
  · rcases h : astOverload ws o with - | ⟨l, ws1⟩ <;> simp [astOp, he, hk, astOverloads, h]
  · rcases h : astOverloads ws (o :: p :: os) with - | ⟨l, ws1⟩ <;> simp [astOp, he, hk, h]

theorem runs_matchKey {S : Nat → Prop} {store : Val} {key : Option Val} {k : Val → M} {Q : Prop}
    (hst : Vok S store) (hkey : ∀ ws, Cov S ws → ∃ e, astKey ws key = some e) (hk : RunsK S k Q) :
    Runs S (matchKey store key k) Q := by
  intro st hn
  simp only [matchKey]
  obtain ⟨h1, h2⟩ := outcome_region (hk (plus S st.next) (fun i => .inl) (.id st.next) (.inr rfl)) (st.next + 1)
  by_cases q : Q
  · obtain ⟨body, n', a, b, c⟩ := h1 q
    simp only [a]
    refine outcome_last hn rfl n' (fun _ => tr_one fun ws hws => ?_) (fun h => absurd q h)
    obtain ⟨e, he⟩ := hst.expr hws
    obtain ⟨ke, hke⟩ := hkey ws hws
    obtain ⟨⟨b2, ws2⟩, hr⟩ := c _ (hws.fresh st.next .arg)
    exact ⟨_, by rw [astOp_match_one]; simp only [he, hke, astOverload, hr]; rfl⟩
  · rcases h2 q with a | ⟨body, n', a, b, c⟩
    · simp only [a]; exact outcome_none q
    · simp only [a]
      refine outcome_last hn rfl n' (fun h => absurd h q) (fun _ => noTr_head (fun ws => ?_) [])
      rw [astOp_match_one]
      rcases astExpr ws store with - | e
      · rfl
      rcases astKey ws key with - | ke
      · rfl
      have := c (ws.fresh st.next .arg).2
      simp only [astOverload, this]

theorem key_none {S : Nat → Prop} : ∀ ws, Cov S ws → ∃ e, astKey ws none = some e := fun _ _ => ⟨none, rfl⟩

theorem key_some {S : Nat → Prop} {v : Val} (hv : Vok S v) : ∀ ws, Cov S ws → ∃ e, astKey ws (some v) = some e :=
  fun _ hc => hv.key hc

theorem runs_get {S : Nat → Prop} {store : Val} {m : Text} {k : Val → M} {Q : Prop} (hst : Vok S store)
    (hk : RunsK S k Q) : Runs S (buildGet store (.member m) k) Q := by
  intro st hn
  simp only [buildGet]
  refine outcome_emit hn rfl (hk (plus S st.next) (fun i => .inl) (.id st.next) (.inr rfl)) (st.next + 1)
    fun ws hws => ?_
  obtain ⟨e, he⟩ := hst.expr (hws.grows (grows_fresh ws st.next .get))
  exact ⟨_, _, by simp only [astOp, he]; rfl, hws.fresh st.next .get⟩

theorem astOp_visit_some {S : Nat → Prop} {ws : WS} (hws : Cov S ws) (r : Nat) (u : Bool) {f : Val} {vs : List Val}
    (hvs : ∀ v ∈ vs, Vok S v) (hf : Vok S f ∨ (∃ m, f = .member m) ∧ vs ≠ []) :
    ∃ ss, astOp ws (.visit r u f vs) = some (ss, (resName ws u r).2) := by
  have hws' := hws.grows (grows_res ws u r)
  obtain ⟨es, hes, hl⟩ := vok_exprs hws' hvs
  rcases hf with hf | ⟨⟨m, rfl⟩, hne⟩
  · obtain ⟨e, he⟩ := hf.expr hws'
    cases f <;> first | exact hf.elim | exact ⟨_, by simp only [astOp, he, hes]; rfl⟩
  · rcases es with - | ⟨o, es⟩
    · exact absurd (List.length_eq_zero_iff.1 hl.symm) hne
    · exact ⟨_, by simp only [astOp, hes]; rfl⟩

theorem runs_visit {S : Nat → Prop} {f : Val} {vs : List Val} {k : Val → M} {Q : Prop}
    (hvs : ∀ v ∈ vs, Vok S v) (hf : Vok S f ∨ (∃ m, f = .member m) ∧ vs ≠ []) (hk : RunsK S k Q) :
    Runs S (buildVisit f vs k) Q := by
  intro st hn
  simp only [buildVisit]
  refine outcome_emit hn rfl (hk (plus S st.next) (fun i => .inl) (.id st.next) (.inr rfl)) (st.next + 1)
    fun ws hws => ?_
  obtain ⟨ss, hss⟩ := astOp_visit_some hws st.next false hvs hf
  exact ⟨ss, _, hss, hws.fresh st.next .result⟩

theorem runs_visit_bad {S : Nat → Prop} {m : Text} {k : Val → M} {Q Q' : Prop} (hk : RunsK S k Q) (hq : ¬ Q') :
    Runs S (buildVisit (.member m) [] k) Q' := by
  intro st hn
  simp only [buildVisit]
  exact outcome_emit_bad hn rfl (hk (plus S st.next) (fun i => .inl) (.id st.next) (.inr rfl)) (st.next + 1)
    (fun ws => by simp [astOp, astExprs]) hq

theorem runs_discard {S : Nat → Prop} : Runs S (emit .discard) True := by
  intro st hn
  exact outcome_last hn rfl st.next (fun _ => tr_one fun ws _ => ⟨_, rfl⟩) (fun h => absurd trivial h)

theorem runs_call {S : Nat → Prop} {f : Val} {vs : List Val}
    (hvs : ∀ v ∈ vs, Vok S v) (hf : Vok S f ∨ (∃ m, f = .member m) ∧ vs ≠ []) :
    Runs S (buildCall f vs) True := by
  intro st hn
  simp only [buildCall]
  refine outcome_emit hn rfl (runs_discard (S := S)) (st.next + 1) fun ws hws => ?_
  obtain ⟨ss, hss⟩ := astOp_visit_some hws st.next true hvs hf
  exact ⟨ss, _, hss, hws⟩

theorem runs_call_bad {S : Nat → Prop} {m : Text} {Q' : Prop} (hq : ¬ Q') :
    Runs S (buildCall (.member m) []) Q' := by
  intro st hn
  simp only [buildCall]
  exact outcome_emit_bad hn rfl (runs_discard (S := S)) (st.next + 1) (fun ws => by simp [astOp, astExprs]) hq

/-- The variables in scope, and the identities they are bound to. -/
def Scope (S : Nat → Prop) (B : Nat → Bool) (Γ : Env Nat Nat) : Prop :=
  ∀ x, (Γ x).isSome = B x ∧ ∀ i, Γ x = some i → S i

theorem Scope.mono {S S' : Nat → Prop} {B : Nat → Bool} {Γ : Env Nat Nat} (h : Scope S B Γ)
    (hs : ∀ i, S i → S' i) : Scope S' B Γ := fun x => ⟨(h x).1, fun i hi => hs i ((h x).2 i hi)⟩

theorem runs_var {S : Nat → Prop} {B : Nat → Bool} {Γ : Env Nat Nat} (hΓ : Scope S B Γ) (x : Nat) {k : Val → M}
    {Q : Prop} (hk : RunsK S k Q) : Runs S (withVar Γ x k) (B x = true ∧ Q) := by
  intro st hn
  simp only [withVar]
  obtain ⟨h1, h2⟩ := hΓ x
  rcases hx : Γ x with - | i
  · rw [hx] at h1
    exact outcome_none (by simp [← h1])
  · rw [hx] at h1
    simp only [Option.isSome_some] at h1
    exact (hk S (fun _ h => h) (.id i) (h2 i hx) st hn).congr (by simp [← h1])

theorem runs_const {S : Nat → Prop} {pl : Bool} {e : Expr} {k : Val → M} {Q : Prop} {acc : Bool}
    (ha : (constant pl e).isSome = acc) (hk : ∀ v, constant pl e = some v → Runs S (k v) Q) :
    Runs S (withConstant pl e k) (acc = true ∧ Q) := by
  intro st hn
  simp only [withConstant]
  rcases hv : constant pl e with - | v
  · rw [hv] at ha
    exact outcome_none (by simp [← ha])
  · rw [hv] at ha
    simp only [Option.isSome_some] at ha
    refine (outcome_emit (o := .pure) (S := S) hn rfl (hk v hv) st.next fun ws hws => ?_).congr (by simp [← ha])
    exact ⟨[], ws, rfl, hws⟩

theorem constant_acc {B : Nat → Bool} {pl : Bool} {e : Expr} (h : ∀ x, e ≠ .var x) (h2 : e.isPath = false)
    (h3 : e.isVisit = false) : (constant pl e).isSome = e.accepted B pl := by
  cases e with
  | var x => exact absurd rfl (h x)
  | path _ _ => simp [Expr.isPath] at h2
  | visit _ _ => simp [Expr.isVisit] at h3
  | str _ => rfl
  | num i =>
    simp only [constant, Expr.accepted]
    split <;> simp_all
  | sym t =>
    rcases t with - | ⟨ch, t⟩
    · rfl
    by_cases hd : ch = '.'
    · subst hd
      cases pl <;> simp [constant, Expr.accepted, memberName]
    · simp [constant, Expr.accepted, memberName, hd]

theorem constant_vok {S : Nat → Prop} {pl : Bool} {e : Expr} {v : Val} (hm : pl = true → calleeMember e = none)
    (h : constant pl e = some v) : Vok S v := by
  cases e with
  | var x => simp [constant] at h
  | path r ks => simp [constant] at h
  | visit f as => simp [constant] at h
  | num i =>
    simp only [constant] at h
    split at h
    · simp only [Option.some.injEq] at h
      subst h
      trivial
    · simp at h
  | str t =>
    simp only [constant, Option.some.injEq] at h
    subst h
    trivial
  | sym t =>
    rcases t with - | ⟨ch, t⟩
    · simp [constant] at h
    by_cases hd : ch = '.'
    · subst hd
      simp only [constant] at h
      cases pl
      · simp at h
      · simp [calleeMember, memberName] at hm
    · have hc : constant pl (.sym (ch :: t)) = some (.cexpr (ch :: t)) := by
        simp [constant, hd]
      rw [hc, Option.some.injEq] at h
      subst h
      simp [Vok]

theorem runs_constant {S : Nat → Prop} {B : Nat → Bool} {pl : Bool} {e : Expr} (h : ∀ x, e ≠ .var x)
    (h2 : e.isPath = false) (h3 : e.isVisit = false) (hm : pl = true → calleeMember e = none) {k : Val → M} {Q : Prop}
    (hk : RunsK S k Q) : Runs S (withConstant pl e k) (e.accepted B pl = true ∧ Q) :=
  runs_const (constant_acc h h2 h3) fun v hv => hk S (fun _ h => h) v (constant_vok hm hv)

theorem calleeMember_some {e : Expr} {m : Text} (h : calleeMember e = some m) : e = .sym ('.' :: m) := by
  cases e with
  | sym t =>
    simp only [calleeMember, memberName] at h
    split at h
    · simp only [Option.some.injEq] at h; rw [h]
    · simp at h
  | _ => simp [calleeMember] at h

/-- The callee and arguments of a call, then the call. -/
theorem runs_apply {S : Nat → Prop} {B : Nat → Bool} {Γ : Env Nat Nat} {callee : Expr} {args : List Expr}
    {k : Val → List Val → M} {Q : Prop} (_ : Scope S B Γ)
    (hcallee : calleeMember callee = none → ∀ (k : Val → M) (Q : Prop), RunsK S k Q →
      Runs S (resolve Γ true callee k) (callee.accepted B true = true ∧ Q))
    (hargs : ∀ (S' : Nat → Prop), (∀ i, S i → S' i) → ∀ (k : List Val → M) (Q : Prop),
      RunsKs S' args.length k Q → Runs S' (resolveAll Γ args k) (argsAccepted B args = true ∧ Q))
    (hgood : ∀ (S' : Nat → Prop), (∀ i, S i → S' i) → ∀ f vs, (∀ v ∈ vs, Vok S' v) →
      (Vok S' f ∨ (∃ m, f = .member m) ∧ vs ≠ []) → Runs S' (k f vs) Q)
    (hbad : ∀ (S' : Nat → Prop), (∀ i, S i → S' i) → ∀ m, Runs S' (k (.member m) []) False) :
    Runs S (resolve Γ true callee fun f => resolveAll Γ args fun vs => k f vs)
      (Expr.accepted B false (.visit callee args) = true ∧ Q) := by
  rcases hcm : calleeMember callee with - | m
  · refine (hcallee hcm _ (argsAccepted B args = true ∧ Q) fun S' hs v hv => hargs S' hs _ _
      fun S2 hs2 vs hvs _ => hgood S2 (fun i hi => hs2 i (hs i hi)) v vs hvs (.inl (hv.mono hs2))).congr ?_
    simp [Expr.accepted, hcm, and_assoc]
  · have hce := calleeMember_some hcm
    subst hce
    simp only [resolve]
    refine (runs_const (acc := true) (Q := argsAccepted B args = true ∧ args ≠ [] ∧ Q) rfl fun v hv => ?_).congr ?_
    · simp only [constant, if_true, Option.some.injEq] at hv
      subst hv
      refine hargs S (fun _ h => h) _ _ fun S2 hs2 vs hvs hl => ?_
      by_cases hne : args = []
      · subst hne
        have : vs = [] := List.length_eq_zero_iff.1 hl
        subst this
        exact (hbad S2 hs2 m).congr (by simp)
      · have : vs ≠ [] := by rintro rfl; exact hne (List.length_eq_zero_iff.1 hl.symm)
        exact (hgood S2 hs2 (.member m) vs hvs (.inr ⟨⟨m, rfl⟩, this⟩)).congr (by simp [hne])
    · simp [Expr.accepted, hcm, and_assoc]

mutual
theorem resolve_runs {B : Nat → Bool} {Γ : Env Nat Nat} : ∀ (e : Expr) (S : Nat → Prop) (pl : Bool) (k : Val → M)
    (Q : Prop), Scope S B Γ → (pl = true → calleeMember e = none) → RunsK S k Q →
    Runs S (resolve Γ pl e k) (e.accepted B pl = true ∧ Q)
  | .var x, S, pl, k, Q, hΓ, hm, hk => by
    simp only [resolve, Expr.accepted]
    exact runs_var hΓ x hk
  | .sym t, S, pl, k, Q, hΓ, hm, hk => by
    simp only [resolve]
    exact runs_constant (by simp) rfl rfl hm hk
  | .num t, S, pl, k, Q, hΓ, hm, hk => by
    simp only [resolve]
    exact runs_constant (by simp) rfl rfl hm hk
  | .str t, S, pl, k, Q, hΓ, hm, hk => by
    simp only [resolve]
    exact runs_constant (by simp) rfl rfl hm hk
  | .path root [], S, pl, k, Q, hΓ, hm, hk => by
    simp only [resolve]
    exact (runs_var hΓ root hk).congr (by simp [Expr.accepted, nodesAccepted])
  | .path root (key :: keys), S, pl, k, Q, hΓ, hm, hk => by
    simp only [resolve]
    refine (runs_var hΓ root (Q := nodesAccepted B (key :: keys) = true ∧ Q) fun S' hs v hv => ?_).congr ?_
    · exact pathNodes_runs (key :: keys) S' v k Q (hΓ.mono hs) hv (hk.mono hs)
    · simp [Expr.accepted, and_assoc]
  | .visit callee args, S, pl, k, Q, hΓ, hm, hk => by
    simp only [resolve]
    have hacc : Expr.accepted B pl (.visit callee args) = Expr.accepted B false (.visit callee args) := by
      simp [Expr.accepted]
    rw [hacc]
    exact runs_close (runs_apply hΓ (fun hcm k Q hk => resolve_runs callee S true k Q hΓ (fun _ => hcm) hk)
      (fun S' hs k Q hk => resolveAll_runs args S' k Q (hΓ.mono hs) hk)
      (fun S' hs f vs hvs hf => runs_visit hvs hf (hk.mono hs))
      (fun S' hs m => runs_visit_bad (hk.mono hs) id))

theorem resolveAll_runs {B : Nat → Bool} {Γ : Env Nat Nat} : ∀ (es : List Expr) (S : Nat → Prop)
    (k : List Val → M) (Q : Prop), Scope S B Γ → RunsKs S es.length k Q →
    Runs S (resolveAll Γ es k) (argsAccepted B es = true ∧ Q)
  | [], S, k, Q, hΓ, hk => by
    simp only [resolveAll]
    exact (hk S (fun _ h => h) [] (by simp) rfl).congr (by simp [argsAccepted])
  | e :: es, S, k, Q, hΓ, hk => by
    simp only [resolveAll]
    refine (resolve_runs e S false _ (argsAccepted B es = true ∧ Q) hΓ (by simp) fun S' hs v hv => ?_).congr ?_
    · refine resolveAll_runs es S' _ Q (hΓ.mono hs) fun S2 hs2 vs hvs hl => ?_
      refine hk S2 (fun i hi => hs2 i (hs i hi)) (v :: vs) ?_ (by simp [hl])
      intro u hu
      rcases List.mem_cons.1 hu with rfl | hu
      · exact hv.mono hs2
      · exact hvs u hu
    · simp [argsAccepted, and_assoc]

theorem pathNodes_runs {B : Nat → Bool} {Γ : Env Nat Nat} : ∀ (keys : List Expr) (S : Nat → Prop) (store : Val)
    (k : Val → M) (Q : Prop), Scope S B Γ → Vok S store → RunsK S k Q →
    Runs S (pathNodes Γ store keys k) (nodesAccepted B keys = true ∧ Q)
  | [], S, store, k, Q, hΓ, hst, hk => by
    simp only [pathNodes]
    exact (runs_matchKey hst key_none hk).congr (by simp [nodesAccepted])
  | key :: keys, S, store, k, Q, hΓ, hst, hk => by
    simp only [pathNodes]
    refine (pathNode_runs key S store _ (nodesAccepted B keys = true ∧ Q) hΓ hst fun S' hs v hv => ?_).congr ?_
    · exact pathNodes_runs keys S' v k Q (hΓ.mono hs) hv (hk.mono hs)
    · simp [nodesAccepted, and_assoc]

theorem pathNode_runs {B : Nat → Bool} {Γ : Env Nat Nat} : ∀ (key : Expr) (S : Nat → Prop) (store : Val)
    (k : Val → M) (Q : Prop), Scope S B Γ → Vok S store → RunsK S k Q →
    Runs S (pathNode Γ store key k) (key.nodeAccepted B = true ∧ Q)
  | .sym t, S, store, k, Q, hΓ, hst, hk => by
    simp only [pathNode]
    have hacc : (constant true (.sym t)).isSome = Expr.nodeAccepted B (.sym t) := by
      rw [constant_acc (B := B) (by simp) rfl rfl]
      simp [Expr.accepted, Expr.nodeAccepted]
    refine runs_close (runs_const hacc fun v hv => ?_)
    rcases t with - | ⟨ch, t⟩
    · simp [constant] at hv
    by_cases hd : ch = '.'
    · subst hd
      simp only [constant, if_true, Option.some.injEq] at hv
      subst hv
      exact runs_matchKey hst key_none fun S' hs v hv => runs_get hv (hk.mono hs)
    · have hcst : constant true (.sym (ch :: t)) = some (.cexpr (ch :: t)) := by
        simp [constant, hd]
      rw [hcst, Option.some.injEq] at hv
      subst hv
      exact runs_matchKey hst (key_some (by simp [Vok])) hk
  | .num i, S, store, k, Q, hΓ, hst, hk => by
    simp only [pathNode]
    refine (runs_close (runs_constant (B := B) (by simp) rfl rfl (by simp [calleeMember])
      fun S' hs v hv => runs_matchKey (hst.mono hs) (key_some hv) (hk.mono hs))).congr ?_
    simp [Expr.accepted, Expr.nodeAccepted]
  | .str i, S, store, k, Q, hΓ, hst, hk => by
    simp only [pathNode]
    refine (runs_close (runs_constant (B := B) (by simp) rfl rfl (by simp [calleeMember])
      fun S' hs v hv => runs_matchKey (hst.mono hs) (key_some hv) (hk.mono hs))).congr ?_
    simp [Expr.accepted, Expr.nodeAccepted]
  | .var x, S, store, k, Q, hΓ, hst, hk => by
    simp only [pathNode, Expr.nodeAccepted]
    exact runs_close (runs_var hΓ x fun S' hs v hv => runs_matchKey (hst.mono hs) (key_some hv) (hk.mono hs))
  | .path root [], S, store, k, Q, hΓ, hst, hk => by
    simp only [pathNode]
    refine (runs_close (runs_var hΓ root fun S' hs v hv =>
      runs_close (runs_matchKey (hst.mono hs) (key_some hv) (hk.mono hs)))).congr ?_
    simp [Expr.nodeAccepted, nodesAccepted]
  | .path root (key :: keys), S, store, k, Q, hΓ, hst, hk => by
    simp only [pathNode]
    refine (runs_close (runs_var hΓ root (Q := nodesAccepted B (key :: keys) = true ∧ Q)
      fun S' hs v hv => ?_)).congr ?_
    · exact pathNodes_runs (key :: keys) S' v _ Q (hΓ.mono hs) hv fun S2 hs2 u hu =>
        runs_close (runs_matchKey (hst.mono fun i hi => hs2 i (hs i hi)) (key_some hu)
          (hk.mono fun i hi => hs2 i (hs i hi)))
    · simp [Expr.nodeAccepted, and_assoc]
  | .visit _ _, S, store, k, Q, hΓ, hst, hk => by
    simp only [pathNode]
    exact runs_fail (by simp [Expr.nodeAccepted])
end

/-! ### Statements -/

/-- What a step does to a block that ends in a statement: the block stays translated exactly if it was and `Q`. -/
def After (S : Nat → Prop) (m : M) (Q : Prop) : Prop := ∀ st, TermLast st.cur →
  (Tr S st.cur → Q → ∃ st', m st = some st' ∧ TermLast st'.cur ∧ Tr S st'.cur) ∧
  (NoTr st.cur ∨ ¬ Q → m st = none ∨ ∃ st', m st = some st' ∧ TermLast st'.cur ∧ NoTr st'.cur) ∧
  ∀ st', m st = some st' → TermLast st'.cur

/-- A region is built and translated exactly if `Q`. -/
def RegionRuns (S : Nat → Prop) (m : M) (Q : Prop) : Prop := ∀ n,
  (Q → ∃ body n', region m n = some (body, n') ∧ TermLast body ∧ Tr S body) ∧
  (¬ Q → region m n = none ∨ ∃ body n', region m n = some (body, n') ∧ TermLast body ∧ NoTr body)

theorem after_closed {S : Nat → Prop} {m : M} {Q : Prop} (hc : Closed m) (h : Runs S m Q) : After S m Q := by
  intro st ht
  have hm : m st = m ⟨[.scope st.cur], st.next⟩ := by
    conv => lhs; rw [← hc]
    simp only [M.then, closePrev, ht.ends, if_true, Option.bind_some]
  rw [hm]
  obtain ⟨h1, h2⟩ := h ⟨[.scope st.cur], st.next⟩ (by intro o ho; simp at ho; subst ho; rfl)
  refine ⟨fun a q => ?_, fun a => ?_, fun st2 hst2 => ?_⟩
  rotate_left 2
  · by_cases q : Q
    · obtain ⟨st', ops, b, c, d, e⟩ := h1 q
      rw [hst2, Option.some.injEq] at b
      rw [b, c]; exact d.cons rfl
    · rcases h2 q with b | ⟨st', ops, b, c, d, e⟩
      · simp [hst2] at b
      · rw [hst2, Option.some.injEq] at b
        rw [b, c]; exact d.cons rfl
  · obtain ⟨st', ops, b, c, d, e⟩ := h1 q
    refine ⟨st', b, by rw [c]; exact d.cons rfl, ?_⟩
    rw [c]
    refine tr_cons (S' := S) (fun ws hws => ?_) e
    obtain ⟨⟨ss, ws'⟩, hr⟩ := a ws hws
    exact ⟨ss, ws', by simp only [astOp, hr], hws.grows (ops_grows _ _ _ _ hr)⟩
  · by_cases q : Q
    · rcases a with a | a
      · obtain ⟨st', ops, b, c, d, -⟩ := h1 q
        refine .inr ⟨st', b, by rw [c]; exact d.cons rfl, ?_⟩
        rw [c]
        exact noTr_head (fun ws => by simp only [astOp, a ws]) _
      · exact absurd q a
    · rcases h2 q with b | ⟨st', ops, b, c, d, e⟩
      · exact .inl b
      · refine .inr ⟨st', b, by rw [c]; exact d.cons rfl, ?_⟩
        rw [c]
        exact noTr_cons e

theorem after_refused {S : Nat → Prop} {m : M} {Q : Prop} (hr : Refused m) (h : ¬ Q) : After S m Q := by
  intro st ht
  rw [hr st ht.ends]
  exact ⟨fun _ q => absurd q h, fun _ => .inl rfl, by simp⟩

theorem refused_fail : Refused fun _ => none := fun _ _ => rfl

theorem After.congr {S : Nat → Prop} {m : M} {Q Q' : Prop} (h : After S m Q) (hq : Q ↔ Q') : After S m Q' := by
  rw [← propext hq]; exact h

/-- A condition that computes something closes the previous scope; another one is refused after a statement. -/
theorem closed_computes (Γ : Env Nat Nat) (pl : Bool) (k : Val → M) : ∀ e : Expr, e.computes = true →
    Closed (resolve Γ pl e k)
  | .path x (key :: keys), _ => by
    simp only [resolve, pathNodes]
    exact closed_var x fun v => closed_pathNode Γ v _ key
  | .visit _ _, _ => by simp only [resolve]; exact closed_close _
  | .var _, h => by simp [Expr.computes] at h
  | .sym _, h => by simp [Expr.computes] at h
  | .num _, h => by simp [Expr.computes] at h
  | .str _, h => by simp [Expr.computes] at h
  | .path _ [], h => by simp [Expr.computes] at h

theorem refused_computes (Γ : Env Nat Nat) (pl : Bool) {k : Val → M} (hk : ∀ v, Refused (k v)) : ∀ e : Expr,
    e.computes = false → Refused (resolve Γ pl e k)
  | .path x [], _ => by simp only [resolve]; exact refused_var x hk
  | .var x, _ => by simp only [resolve]; exact refused_var x hk
  | .sym _, _ => by simp only [resolve]; exact refused_const _ _ _
  | .num _, _ => by simp only [resolve]; exact refused_const _ _ _
  | .str _, _ => by simp only [resolve]; exact refused_const _ _ _
  | .path _ (_ :: _), h => by simp [Expr.computes] at h
  | .visit _ _, h => by simp [Expr.computes] at h

theorem else_isSome (ws : WS) : ∀ {body : List Op}, TermLast body →
    (astElse ws body).isSome = (astOps ws body).isSome
  | [], h => h.elim
  | o :: os, h => by
    rcases hi : o.isIf with - | -
    · rw [astElse_block ws o os hi]; simp
    · cases o with
      | matchIf c t e =>
        rcases os with - | ⟨p, os⟩
        · simp only [astElse, astOps, astOp_if]
          rcases astExpr ws c with - | ce
          · rfl
          rcases astOps ws t with - | ⟨tt, ws1⟩
          · rfl
          rcases hz : astElse ws1 e with - | ⟨ee, ws2⟩ <;> simp [hz]
        · exact absurd h.1 (by simp [Op.isTerm])
      | _ => simp [Op.isIf] at hi

theorem none_of_isSome_eq {α β : Type} {x : Option α} {y : Option β} (h : x.isSome = y.isSome) (hy : y = none) :
    x = none := by
  subst hy; cases x <;> simp_all

/-- A condition with its two regions. -/
theorem runs_if {S : Nat → Prop} {c : Val} {mt me : M} {Q1 Q2 : Prop} (hc : Vok S c)
    (ht : RegionRuns S mt Q1) (he : RegionRuns S me Q2) :
    Runs S (fun st => match region mt st.next with
      | none => none
      | some (t, n) =>
        match region me n with
        | none => none
        | some (e, n) => emit (.matchIf c t e) { st with next := n }) (Q1 ∧ Q2) := by
  intro st hn
  dsimp only
  rcases hrt : region mt st.next with - | ⟨t, n⟩
  · refine outcome_none fun q => ?_
    obtain ⟨body, n', a, -⟩ := (ht st.next).1 q.1
    simp [hrt] at a
  dsimp only
  rcases hre : region me n with - | ⟨e, n2⟩
  · refine outcome_none fun q => ?_
    obtain ⟨body, n', a, -⟩ := (he n).1 q.2
    simp [hre] at a
  dsimp only
  refine outcome_last hn rfl n2 (fun q => ?_) (fun q => ?_)
  · obtain ⟨body, n', a, -, b⟩ := (ht st.next).1 q.1
    rw [hrt, Option.some.injEq, Prod.mk.injEq] at a
    obtain ⟨rfl, rfl⟩ := a
    obtain ⟨body2, n3, a, b1, b2⟩ := (he n).1 q.2
    rw [hre, Option.some.injEq, Prod.mk.injEq] at a
    obtain ⟨rfl, rfl⟩ := a
    refine tr_one fun ws hws => ?_
    obtain ⟨ce, hce⟩ := hc.expr hws
    obtain ⟨⟨tt, ws1⟩, htt⟩ := b ws hws
    have hws1 := hws.grows (ops_grows _ _ _ _ htt)
    obtain ⟨r, hr⟩ := b2 ws1 hws1
    have hel : (astElse ws1 e).isSome := by rw [else_isSome ws1 b1, hr]; rfl
    obtain ⟨⟨ee, ws2⟩, hee⟩ := Option.isSome_iff_exists.1 hel
    exact ⟨_, by rw [astOp_if]; simp only [hce, htt, hee]; rfl⟩
  · refine noTr_head (fun ws => ?_) []
    rw [astOp_if]
    rcases astExpr ws c with - | ce
    · rfl
    dsimp only
    by_cases q1 : Q1
    · have q2 : ¬ Q2 := fun h => q ⟨q1, h⟩
      rcases (he n).2 q2 with a | ⟨body2, n3, a, b1, b2⟩
      · simp [hre] at a
      · rw [hre, Option.some.injEq, Prod.mk.injEq] at a
        obtain ⟨rfl, rfl⟩ := a
        rcases astOps ws t with - | ⟨tt, ws1⟩
        · rfl
        have := none_of_isSome_eq (else_isSome ws1 b1) (b2 ws1)
        simp only [this]
    · rcases (ht st.next).2 q1 with a | ⟨body2, n3, a, b1, b2⟩
      · simp [hrt] at a
      · rw [hrt, Option.some.injEq, Prod.mk.injEq] at a
        obtain ⟨rfl, rfl⟩ := a
        simp only [b2 ws]

/-- The overloads are built and translated exactly if `Q`. -/
def OverloadsRun (S : Nat → Prop) (x : Option (List Overload × Nat)) (Q : Prop) : Prop :=
  (Q → ∃ os n', x = some (os, n') ∧ ∀ ws, Cov S ws → ∃ r, astOverloads ws os = some r) ∧
  (¬ Q → x = none ∨ ∃ os n', x = some (os, n') ∧ ∀ ws, astOverloads ws os = none)

theorem runs_clauses {S : Nat → Prop} {v : Val} {cl : Nat → Option (List Overload × Nat)} {Q : Prop} (hv : Vok S v)
    (h : ∀ n, OverloadsRun S (cl n) Q) :
    Runs S (M.then closePrev fun st => match cl st.next with
      | none => none
      | some (os, n) => emit (.matchOp v none os) { st with next := n }) Q := by
  refine runs_close fun st hn => ?_
  try dsimp only
  obtain ⟨h1, h2⟩ := h st.next
  by_cases q : Q
  · obtain ⟨os, n', a, b⟩ := h1 q
    simp only [a]
    refine outcome_last hn rfl n' (fun _ => tr_one fun ws hws => ?_) (fun h => absurd q h)
    obtain ⟨e, he⟩ := hv.expr hws
    obtain ⟨r, hr⟩ := b ws hws
    refine Option.isSome_iff_exists.1 ?_
    rw [astOp_match_many ws v none os he rfl, hr]; rfl
  · rcases h2 q with a | ⟨os, n', a, b⟩
    · simp only [a]; exact outcome_none q
    · simp only [a]
      refine outcome_last hn rfl n' (fun h => absurd h q) (fun _ => noTr_head (fun ws => ?_) [])
      rcases he : astExpr ws v with - | e
      · rcases os with - | ⟨o, - | ⟨p, os⟩⟩ <;> simp [astOp, he]
      · exact none_of_isSome_eq (astOp_match_many ws v none os he rfl) (b ws)

theorem Scope.set {S : Nat → Prop} {B : Nat → Bool} {Γ : Env Nat Nat} (h : Scope S B Γ) (x n : Nat) :
    Scope (plus S n) (fun y => y == x || B y) (Γ.set x n) := by
  intro y
  by_cases hy : y = x
  · subst hy
    refine ⟨by simp [Env.set], fun i hi => ?_⟩
    simp only [Env.set, if_true, Option.some.injEq] at hi
    exact .inr hi.symm
  · refine ⟨by simp [Env.set, hy, (h y).1], fun i hi => ?_⟩
    simp only [Env.set, hy, if_false] at hi
    exact .inl ((h y).2 i hi)

mutual
theorem stmt_runs : ∀ (s : Stmt) (S : Nat → Prop) (B : Nat → Bool) (Γ : Env Nat Nat) (c : Nat), Scope S B Γ → S c →
    Runs S (compileStmt Γ (.id c) s) (s.accepted B true = true) ∧
    After S (compileStmt Γ (.id c) s) (s.accepted B false = true)
  | .call args, S, B, Γ, c, hΓ, hc => by
    simp only [compileStmt, Stmt.accepted]
    split
    · rename_i h
      have hq : ¬ ((!args.isEmpty && args.all (fun e => !e.isVisit) && argsAccepted B args) = true) := by
        intro hq
        simp only [Bool.and_eq_true, Bool.not_eq_true', List.all_eq_true, Bool.or_eq_true, List.any_eq_true] at hq h
        rcases h with h | ⟨e, he, hv⟩
        · rw [h] at hq; simp at hq
        · rw [hq.1.2 e he] at hv; simp at hv
      exact ⟨runs_fail hq, after_refused refused_fail hq⟩
    · rename_i h
      have hq : (!args.isEmpty && args.all (fun e => !e.isVisit)) = true := by
        simp only [Bool.or_eq_true, not_or, List.any_eq_true, not_exists, not_and, Bool.not_eq_true] at h
        simp only [Bool.and_eq_true, Bool.not_eq_true', List.all_eq_true]
        exact ⟨h.1, fun e he => h.2 e he⟩
      have hr : Runs S (M.then closePrev (resolveAll Γ args fun vs => buildCall (.id c) vs))
          ((!args.isEmpty && args.all (fun e => !e.isVisit) && argsAccepted B args) = true) := by
        refine (runs_close (resolveAll_runs args S _ True hΓ fun S' hs vs hvs _ =>
          runs_call (f := .id c) hvs (.inl (hs c hc)))).congr ?_
        rw [hq]; simp
      exact ⟨hr, after_closed (closed_close _) hr⟩
  | .visit callee args, S, B, Γ, c, hΓ, hc => by
    simp only [compileStmt, Stmt.accepted]
    have hr := runs_close (runs_apply (k := fun f vs => buildCall f vs) (Q := True) hΓ
      (fun hcm k Q hk => resolve_runs callee S true k Q hΓ (fun _ => hcm) hk)
      (fun S' hs k Q hk => resolveAll_runs args S' k Q (hΓ.mono hs) hk)
      (fun S' hs f vs hvs hf => runs_call hvs hf) (fun S' hs m => runs_call_bad id))
    have hr := hr.congr (Q' := Expr.accepted B false (.visit callee args) = true) (by simp)
    exact ⟨hr, after_closed (closed_close _) hr⟩
  | .matchPath path clauses, S, B, Γ, c, hΓ, hc => by
    simp only [compileStmt, Stmt.accepted]
    split
    · rename_i h
      have hq : ¬ ((path.isPath && path.accepted B false && !clauses.isEmpty && clausesAccepted B clauses) = true) := by
        intro hq
        simp only [Bool.and_eq_true, Bool.or_eq_true, Bool.not_eq_true'] at hq h
        rcases h with h | h
        · rw [h] at hq; simp at hq
        · rw [h] at hq; simp at hq
      exact ⟨runs_fail hq, after_refused refused_fail hq⟩
    · rename_i h
      simp only [Bool.or_eq_true, not_or, Bool.not_eq_true, Bool.not_eq_false', Bool.not_eq_true', Bool.not_eq_false] at h
      have hr := (resolve_runs path S false (fun store => M.then closePrev fun st =>
          match compileClauses Γ (.id c) clauses st.next with
          | none => none
          | some (os, n) => emit (.matchOp store none os) { st with next := n })
        (clausesAccepted B clauses = true) hΓ (by simp) fun S' hs v hv =>
          runs_clauses hv fun n => clauses_run clauses S' B Γ c n (hΓ.mono hs) (hs c hc)).congr
        (Q' := (path.isPath && path.accepted B false && !clauses.isEmpty && clausesAccepted B clauses) = true)
        (by rw [h.1, h.2]; simp)
      exact ⟨hr, after_closed (closed_path Γ false (fun v => closed_close _) path h.2) hr⟩
  | .matchIf cond thn els, S, B, Γ, c, hΓ, hc => by
    simp only [compileStmt, Stmt.accepted]
    have hr := resolve_runs (B := B) cond S false (fun v => fun st =>
        match region (compileStmts Γ (.id c) thn) st.next with
        | none => none
        | some (t, n) =>
          match region (compileStmts Γ (.id c) els) n with
          | none => none
          | some (e, n) => emit (.matchIf v t e) { st with next := n })
      (blockAccepted B thn = true ∧ blockAccepted B els = true) hΓ (by simp) fun S' hs v hv =>
        runs_if hv (block_runs thn S' B Γ c (hΓ.mono hs) (hs c hc)) (block_runs els S' B Γ c (hΓ.mono hs) (hs c hc))
    refine ⟨hr.congr (by simp [and_assoc]), ?_⟩
    rcases hcc : cond.computes with - | -
    · refine after_refused (refused_computes Γ false (fun v st ht => ?_) cond hcc) (by simp)
      rcases region (compileStmts Γ (.id c) thn) st.next with - | ⟨t, n⟩
      · rfl
      dsimp only
      rcases region (compileStmts Γ (.id c) els) n with - | ⟨e, n2⟩
      · rfl
      simp [emit, ht]
    · exact (after_closed (closed_computes Γ false _ cond hcc) hr).congr (by simp [and_assoc])
  | .noop x, S, B, Γ, c, hΓ, hc => by
    simp only [compileStmt, Stmt.accepted]
    refine ⟨(runs_var hΓ x (Q := True) fun S' hs v hv st hn => ?_).congr (by simp),
      after_refused (refused_var x fun v => refused_emit _) (by simp)⟩
    refine outcome_last hn rfl st.next (fun _ => tr_one fun ws hws => ?_) (fun h => absurd trivial h)
    obtain ⟨e, he⟩ := hv.expr hws
    exact ⟨_, by simp only [astOp, he]; rfl⟩

theorem block_runs : ∀ (ss : List Stmt) (S : Nat → Prop) (B : Nat → Bool) (Γ : Env Nat Nat) (c : Nat), Scope S B Γ →
    S c → RegionRuns S (compileStmts Γ (.id c) ss) (blockAccepted B ss = true)
  | [], S, B, Γ, c, hΓ, hc => by
    intro n
    exact ⟨by simp [blockAccepted], fun _ => .inl (by simp [region, compileStmts, endsTerm])⟩
  | s :: ss, S, B, Γ, c, hΓ, hc => by
    intro n
    obtain ⟨h1, h2⟩ := (stmt_runs s S B Γ c hΓ hc).1 ⟨[], n⟩ NoTerms.nil
    have hrest := rest_runs ss S B Γ c hΓ hc
    simp only [region, compileStmts, M.then, blockAccepted, Bool.and_eq_true]
    by_cases q : s.accepted B true = true
    · obtain ⟨st', ops, a, b, d, e⟩ := h1 q
      simp only [List.nil_append] at b
      subst b
      obtain ⟨r1, r2, -⟩ := hrest st' d
      simp only [a, Option.bind_some]
      refine ⟨fun qq => ?_, fun qq => ?_⟩
      · obtain ⟨st2, a2, b2, c2⟩ := r1 e qq.2
        exact ⟨st2.cur, st2.next, by simp [a2, b2.ends], b2, c2⟩
      · rcases r2 (.inr fun h => qq ⟨q, h⟩) with a2 | ⟨st2, a2, b2, c2⟩
        · exact .inl (by simp [a2])
        · exact .inr ⟨st2.cur, st2.next, by simp [a2, b2.ends], b2, c2⟩
    · refine ⟨fun qq => absurd qq.1 q, fun _ => ?_⟩
      rcases h2 q with a | ⟨st', ops, a, b, d, e⟩
      · exact .inl (by simp [a])
      · simp only [List.nil_append] at b
        subst b
        obtain ⟨r1, r2, -⟩ := hrest st' d
        simp only [a, Option.bind_some]
        rcases r2 (.inl e) with a2 | ⟨st2, a2, b2, c2⟩
        · exact .inl (by simp [a2])
        · exact .inr ⟨st2.cur, st2.next, by simp [a2, b2.ends], b2, c2⟩

theorem rest_runs : ∀ (ss : List Stmt) (S : Nat → Prop) (B : Nat → Bool) (Γ : Env Nat Nat) (c : Nat), Scope S B Γ →
    S c → After S (compileStmts Γ (.id c) ss) (restAccepted B ss = true)
  | [], S, B, Γ, c, hΓ, hc => by
    intro st ht
    simp only [compileStmts, restAccepted, not_true, or_false]
    exact ⟨fun h _ => ⟨st, rfl, ht, h⟩, fun h => .inr ⟨st, rfl, ht, h⟩, fun st' h => by
      rw [Option.some.injEq] at h; rw [← h]; exact ht⟩
  | s :: ss, S, B, Γ, c, hΓ, hc => by
    intro st ht
    obtain ⟨h1, h2, h3⟩ := (stmt_runs s S B Γ c hΓ hc).2 st ht
    have hrest := rest_runs ss S B Γ c hΓ hc
    simp only [compileStmts, M.then, restAccepted, Bool.and_eq_true]
    refine ⟨fun a q => ?_, fun a => ?_, fun st2 hst2 => ?_⟩
    rotate_left 2
    · rcases hm : compileStmt Γ (.id c) s st with - | st'
      · simp [hm] at hst2
      · rw [hm, Option.bind_some] at hst2
        exact (hrest st' (h3 st' hm)).2.2 st2 hst2
    · obtain ⟨st', b, d, e⟩ := h1 a q.1
      obtain ⟨st2, b2, d2, e2⟩ := (hrest st' d).1 e q.2
      exact ⟨st2, by simp [b, b2], d2, e2⟩
    · by_cases hbad : NoTr st.cur ∨ ¬ s.accepted B false = true
      · rcases h2 hbad with b | ⟨st', b, d, e⟩
        · exact .inl (by simp [b])
        · rcases (hrest st' d).2.1 (.inl e) with b2 | ⟨st2, b2, d2, e2⟩
          · exact .inl (by simp [b, b2])
          · exact .inr ⟨st2, by simp [b, b2], d2, e2⟩
      · have hq : s.accepted B false = true := Decidable.byContradiction fun h => hbad (.inr h)
        have hrst : ¬ restAccepted B ss = true := by
          rcases a with a | a
          · exact absurd (.inl a) hbad
          · exact fun h => a ⟨hq, h⟩
        rcases hm : compileStmt Γ (.id c) s st with - | st'
        · exact .inl rfl
        · rcases (hrest st' (h3 st' hm)).2.1 (.inr hrst) with b2 | ⟨st2, b2, d2, e2⟩
          · exact .inl (by simp [b2])
          · exact .inr ⟨st2, by simp [b2], d2, e2⟩

theorem clauses_run : ∀ (cs : List Clause) (S : Nat → Prop) (B : Nat → Bool) (Γ : Env Nat Nat) (c n : Nat),
    Scope S B Γ → S c → OverloadsRun S (compileClauses Γ (.id c) cs n) (clausesAccepted B cs = true)
  | [], S, B, Γ, c, n, hΓ, hc => by
    simp only [compileClauses, clausesAccepted]
    exact ⟨fun _ => ⟨[], n, rfl, fun ws _ => ⟨_, rfl⟩⟩, fun h => absurd trivial h⟩
  | .mk type x body :: cs, S, B, Γ, c, n, hΓ, hc => by
    have hbody := block_runs body (plus S n) _ _ c (hΓ.set x n) (.inl hc) (n + 1)
    simp only [compileClauses, clausesAccepted, Bool.and_eq_true]
    rcases hr : region (compileStmts (Γ.set x n) (.id c) body) (n + 1) with - | ⟨b, n'⟩
    · rw [hr] at hbody
      refine ⟨fun q => ?_, fun _ => .inl rfl⟩
      obtain ⟨_, _, a, -⟩ := hbody.1 q.1
      simp at a
    rw [hr] at hbody
    dsimp only
    have hcs := clauses_run cs S B Γ c n' hΓ hc
    rcases hr2 : compileClauses Γ (.id c) cs n' with - | ⟨os, n2⟩
    · rw [hr2] at hcs
      refine ⟨fun q => ?_, fun _ => .inl rfl⟩
      obtain ⟨_, _, a, -⟩ := hcs.1 q.2
      simp at a
    rw [hr2] at hcs
    dsimp only
    refine ⟨fun q => ?_, fun q => ?_⟩
    · obtain ⟨b2, n3, a, -, htr⟩ := hbody.1 q.1
      simp only [Option.some.injEq, Prod.mk.injEq] at a
      obtain ⟨rfl, rfl⟩ := a
      obtain ⟨os2, n4, a, hos⟩ := hcs.1 q.2
      simp only [Option.some.injEq, Prod.mk.injEq] at a
      obtain ⟨rfl, rfl⟩ := a
      refine ⟨_, _, rfl, fun ws hws => ?_⟩
      obtain ⟨⟨bb, ws1⟩, hb⟩ := htr _ (hws.fresh n .arg)
      have hws1 := (hws.grows (grows_fresh ws n .arg)).grows (ops_grows _ _ _ _ hb)
      obtain ⟨⟨u, ws2⟩, hu⟩ := hos ws1 hws1
      exact ⟨_, by simp only [astOverloads, astOverload, hb, hu]; rfl⟩
    · refine .inr ⟨_, _, rfl, fun ws => ?_⟩
      simp only [astOverloads, astOverload]
      by_cases q1 : blockAccepted (fun y => y == x || B y) body = true
      · rcases hcs.2 fun h => q ⟨q1, h⟩ with a | ⟨os2, n4, a, hos⟩
        · simp at a
        simp only [Option.some.injEq, Prod.mk.injEq] at a
        obtain ⟨rfl, rfl⟩ := a
        rcases astOps (ws.fresh n .arg).2 b with - | ⟨bb, ws1⟩
        · rfl
        simp only [hos ws1]
      · rcases hbody.2 q1 with a | ⟨b2, n3, a, -, htr⟩
        · simp at a
        simp only [Option.some.injEq, Prod.mk.injEq] at a
        obtain ⟨rfl, rfl⟩ := a
        simp only [htr (ws.fresh n .arg).2]
end

/-! ### Functions -/

theorem grows_freshArgs : ∀ (as : List Nat) (ws : WS), Grows ws (freshArgs ws as).2
  | [], ws => Grows.refl ws
  | a :: as, ws => by
    simp only [freshArgs]
    exact (grows_fresh ws a .arg).trans (grows_freshArgs as _)

theorem cov_freshArgs : ∀ (as : List Nat) (ws : WS), Cov (· ∈ as) (freshArgs ws as).2
  | [], ws => by intro i hi; simp at hi
  | a :: as, ws => by
    simp only [freshArgs]
    intro i hi
    rcases List.mem_cons.1 hi with rfl | hi
    · refine grows_freshArgs as _ i ?_
      rw [fresh_find_self]; rfl
    · exact cov_freshArgs as _ i hi

theorem compile_isSome (f : Fn) : (compile f).isSome = f.accepted := by
  have hΓ : Scope (· ∈ List.range (f.stores + 1)) (fun x => decide (x < f.stores)) (storeEnv f.stores) := by
    intro x
    simp only [storeEnv]
    by_cases hx : x < f.stores
    · simp only [hx, if_true, Option.isSome_some, decide_true, Option.some.injEq, List.mem_range, true_and]
      omega
    · simp [hx]
  have hb := block_runs f.body _ _ _ f.stores hΓ (by simp) (f.stores + 1)
  simp only [compile, compileFn, Fn.accepted]
  rcases hn : f.name.isEmpty with - | -
  · simp only [Bool.not_false, Bool.true_and, if_false, Bool.false_eq_true]
    rcases hr : region (compileStmts (storeEnv f.stores) (.id f.stores) f.body) (f.stores + 1) with - | ⟨body, n⟩
    · rw [hr] at hb
      rcases hq : blockAccepted (fun x => decide (x < f.stores)) f.body with - | -
      · rfl
      · obtain ⟨_, _, a, -⟩ := hb.1 hq
        simp at a
    · rw [hr] at hb
      simp only [Option.bind_some, writeFunc_ast, astFunc]
      rcases hq : blockAccepted (fun x => decide (x < f.stores)) f.body with - | -
      · rcases hb.2 (by simp [hq]) with a | ⟨b2, n2, a, -, htr⟩
        · simp at a
        simp only [Option.some.injEq, Prod.mk.injEq] at a
        obtain ⟨rfl, rfl⟩ := a
        rw [htr]
        rfl
      · obtain ⟨b2, n2, a, -, htr⟩ := hb.1 hq
        simp only [Option.some.injEq, Prod.mk.injEq] at a
        obtain ⟨rfl, rfl⟩ := a
        obtain ⟨r, hr⟩ := htr _ (cov_freshArgs _ ⟨0, []⟩)
        simp only [hr]
        rfl
  · simp

end Nbdl.Dsl
