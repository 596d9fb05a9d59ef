import Verif.Reader.Parse
import Verif.Dsl.Whole
/-!
# What is written for a plain description is plain
-/
namespace Nbdl.Reader
open Nbdl.Dsl

/-- No number. -/
def noInt (v : Val) : Prop := ∀ i, v ≠ .lit (.int i)

/-- A value whose text can be read, or a member name. -/
def PlainV : Val → Prop
  | .id _ => True
  | .lit (.int _) => True
  | .lit (.str s) => plainString s
  | .cexpr t => plainSymbol t
  | .const _ => False
  | .member m => plainWord m
  | .unit => False

/-- An optional value. -/
def PlainOV : Option Val → Prop
  | none => True
  | some v => PlainV v

mutual
/-- An operation for which plain text is written. -/
def PlainO : Op → Prop
  | .pure => True
  | .const _ => False
  | .empty => False
  | .get _ s k => PlainV s ∧ noInt s ∧ PlainOV k
  | .visit _ _ f as => PlainV f ∧ noInt f ∧ (∀ a ∈ as, PlainV a) ∧ ((∃ m, f = .member m) → ∀ v ∈ as.head?, noInt v)
  | .compose _ _ _ _ => False
  | .discard => True
  | .noop v => PlainV v
  | .matchOp s k os => PlainV s ∧ PlainOV k ∧ os ≠ [] ∧ PlainOvs os
  | .matchIf c t e => PlainV c ∧ PlainOs t ∧ PlainOs e
  | .scope b => PlainOs b

/-- An overload. -/
def PlainOvs : List Overload → Prop
  | [] => True
  | .mk type _ body :: os => plainType type ∧ PlainOs body ∧ PlainOvs os

/-- A block. -/
def PlainOs : List Op → Prop
  | [] => True
  | o :: os => PlainO o ∧ PlainOs os
end

/-! ### The back end -/

theorem PlainCs.append : ∀ {a b : List CStmt}, PlainCs a → PlainCs b → PlainCs (a ++ b)
  | [], _, _, hb => hb
  | _ :: _, _, ha, hb => ⟨ha.1, PlainCs.append ha.2 hb⟩

theorem plain_expr {ws : WS} {v : Val} (hv : PlainV v) {e : CExpr} (h : astExpr ws v = some e) :
    PlainE e ∧ (noInt v → ∀ i, e ≠ .int i) := by
  cases v with
  | id n =>
    simp only [astExpr, Option.map_eq_some_iff] at h
    obtain ⟨x, -, rfl⟩ := h
    exact ⟨trivial, fun _ _ h => nomatch h⟩
  | lit l =>
    cases l with
    | int i =>
      simp only [astExpr, Option.some.injEq] at h
      subst h
      exact ⟨trivial, fun hn => absurd rfl (hn i)⟩
    | str s =>
      simp only [astExpr, Option.some.injEq] at h
      subst h
      exact ⟨hv, fun _ _ h => nomatch h⟩
  | cexpr t =>
    simp only [astExpr] at h
    split at h
    · cases h
    · simp only [Option.some.injEq] at h
      subst h
      exact ⟨hv, fun _ _ h => nomatch h⟩
  | const v => exact hv.elim
  | member m => simp [astExpr] at h
  | unit => exact hv.elim

theorem plain_exprs {ws : WS} : ∀ {vs : List Val}, (∀ v ∈ vs, PlainV v) → ∀ {es : List CExpr}, astExprs ws vs = some es →
    (∀ e ∈ es, PlainE e) ∧ ((∀ v ∈ vs.head?, noInt v) → ∀ e ∈ es.head?, ∀ i, e ≠ .int i)
  | [], _, es, h => by
    simp only [astExprs, Option.some.injEq] at h
    subst h
    simp
  | v :: vs, hv, es, h => by
    simp only [astExprs] at h
    rcases he : astExpr ws v with - | e
    · simp [he] at h
    simp only [he] at h
    rcases hes : astExprs ws vs with - | es'
    · simp [hes] at h
    simp only [hes, Option.some.injEq] at h
    subst h
    obtain ⟨h1, h2⟩ := plain_expr (hv v (by simp)) he
    obtain ⟨h3, -⟩ := plain_exprs (fun u hu => hv u (by simp [hu])) hes
    refine ⟨?_, ?_⟩
    · intro e' he'
      rcases List.mem_cons.1 he' with rfl | hm
      · exact h1
      · exact h3 e' hm
    · intro hn e' he' i
      simp only [List.head?_cons, Option.mem_def, Option.some.injEq] at he'
      subst he'
      exact h2 (hn v (by simp)) i

theorem plain_key {ws : WS} {k : Option Val} (hk : PlainOV k) {e : Option CExpr} (h : astKey ws k = some e) : PlainK e := by
  cases k with
  | none =>
    simp only [astKey, Option.some.injEq] at h
    subst h
    trivial
  | some v =>
    have h' : (astExpr ws v).map some = some e := by
      cases v <;> first | exact h | exact hk.elim
    rw [Option.map_eq_some_iff] at h'
    obtain ⟨x, hx, rfl⟩ := h'
    exact (plain_expr hk hx).1

mutual
theorem plain_op : ∀ (o : Op), PlainO o → ∀ (ws ws' : WS) (ss : List CStmt), astOp ws o = some (ss, ws') → PlainCs ss
  | .pure, _, ws, ws', ss, h => by
    simp only [astOp, Option.some.injEq, Prod.mk.injEq] at h
    rw [← h.1]; trivial
  | .const _, hp, _, _, _, _ => hp.elim
  | .empty, hp, _, _, _, _ => hp.elim
  | .get r o k, hp, ws, ws', ss, h => by
    obtain ⟨-, e, he, hk⟩ := astOp_get ws r o k h
    obtain ⟨p1, p2⟩ := plain_expr hp.1 he
    rcases hk with ⟨m, rfl, rfl⟩ | ⟨-, ke, hke, rfl⟩
    · exact ⟨⟨⟨p1, p2 hp.2.1⟩, hp.2.2⟩, trivial⟩
    · exact ⟨⟨p1, plain_key hp.2.2 hke⟩, trivial⟩
  | .visit r u f as, hp, ws, ws', ss, h => by
    obtain ⟨hf, hfi, has, hm⟩ := hp
    obtain ⟨-, hk⟩ := astOp_visit ws r u f as h
    rcases hk with ⟨m, rfl, o, es, hes, rfl⟩ | ⟨-, e, es, he, hes, rfl⟩
    · obtain ⟨q1, q2⟩ := plain_exprs has hes
      exact ⟨⟨⟨q1 o (by simp), q2 (hm ⟨m, rfl⟩) o (by simp)⟩, hf, fun a ha => q1 a (by simp [ha])⟩, trivial⟩
    · obtain ⟨p1, p2⟩ := plain_expr hf he
      exact ⟨⟨⟨p1, p2 hfi⟩, (plain_exprs has hes).1⟩, trivial⟩
  | .compose _ _ _ _, hp, _, _, _, _ => hp.elim
  | .discard, _, ws, ws', ss, h => by
    simp only [astOp, Option.some.injEq, Prod.mk.injEq] at h
    rw [← h.1]; trivial
  | .noop v, hp, ws, ws', ss, h => by
    simp only [astOp, Option.map_eq_some_iff, Prod.mk.injEq] at h
    obtain ⟨e, he, rfl, -⟩ := h
    exact ⟨(plain_expr hp he).1, trivial⟩
  | .matchOp st k os, hp, ws, ws', ss, h => by
    obtain ⟨hs, hk, hne, hos⟩ := hp
    rcases he : astExpr ws st with - | e
    · rcases os with - | ⟨o, - | ⟨p, os⟩⟩ <;> simp [astOp, he] at h
    rcases hke : astKey ws k with - | ke
    · rcases os with - | ⟨o, - | ⟨p, os⟩⟩ <;> simp [astOp, he, hke] at h
    have p1 := (plain_expr hs he).1
    have p2 := plain_key hk hke
    rcases os with - | ⟨o, - | ⟨p, os⟩⟩
    · exact absurd rfl hne
    · rcases hl : astOverload ws o with - | ⟨l, ws1⟩
      · simp [astOp, he, hke, hl] at h
      simp only [astOp, he, hke, hl, Option.some.injEq, Prod.mk.injEq] at h
      rw [← h.1]
      have hl' : astOverloads ws [o] = some ([l], ws1) := by simp [astOverloads, hl]
      exact ⟨⟨p1, p2, (plain_overloads [o] hos ws ws1 [l] hl').2.1⟩, trivial⟩
    · rcases hl : astOverloads ws (o :: p :: os) with - | ⟨ls, ws1⟩
      · simp [astOp, he, hke, hl] at h
      simp only [astOp, he, hke, hl, Option.some.injEq, Prod.mk.injEq] at h
      rw [← h.1]
      obtain ⟨q1, q2⟩ := plain_overloads (o :: p :: os) hos ws ws1 ls hl
      exact ⟨⟨p1, p2, (by intro e; subst e; simp at q1), q2⟩, trivial⟩
  | .matchIf c t e, hp, ws, ws', ss, h => by
    obtain ⟨hc, ht, he⟩ := hp
    rw [astOp_if] at h
    rcases h1 : astExpr ws c with - | ce
    · simp [h1] at h
    simp only [h1] at h
    rcases h2 : astOps ws t with - | ⟨ts, ws1⟩
    · simp [h2] at h
    simp only [h2] at h
    rcases h3 : astElse ws1 e with - | ⟨es, ws2⟩
    · simp [h3] at h
    simp only [h3, Option.some.injEq, Prod.mk.injEq] at h
    rw [← h.1]
    exact ⟨⟨(plain_expr hc h1).1, plain_ops t ht ws ws1 ts h2, plain_else e he ws1 ws2 es h3⟩, trivial⟩
  | .scope b, hp, ws, ws', ss, h => by
    simp only [astOp] at h
    exact plain_ops b hp ws ws' ss h

theorem plain_else : ∀ (os : List Op), PlainOs os → ∀ (ws ws' : WS) (e : CElse), astElse ws os = some (e, ws') → PlainEl e
  | [], _, ws, ws', e, h => by simp [astElse] at h
  | o :: os, hp, ws, ws', e, h => by
    by_cases hi : o.isIf = true
    · cases o with
      | matchIf c t e' =>
        obtain ⟨⟨hc, ht, he⟩, -⟩ := hp
        simp only [astElse] at h
        rcases h1 : astExpr ws c with - | ce
        · simp [h1] at h
        simp only [h1] at h
        rcases h2 : astOps ws t with - | ⟨ts, ws1⟩
        · simp [h2] at h
        simp only [h2] at h
        rcases h3 : astElse ws1 e' with - | ⟨es, ws2⟩
        · simp [h3] at h
        simp only [h3, Option.some.injEq, Prod.mk.injEq] at h
        rw [← h.1]
        exact ⟨(plain_expr hc h1).1, plain_ops t ht ws ws1 ts h2, plain_else e' he ws1 ws2 es h3⟩
      | _ => simp [Op.isIf] at hi
    · rw [astElse_block ws o os (by simpa using hi), Option.map_eq_some_iff] at h
      obtain ⟨⟨ss, ws1⟩, hs, hh⟩ := h
      simp only [Prod.mk.injEq] at hh
      rw [← hh.1]
      simp only [astOps] at hs
      rcases h1 : astOp ws o with - | ⟨t, ws2⟩
      · simp [h1] at hs
      simp only [h1] at hs
      rcases h2 : astOps ws2 os with - | ⟨u, ws3⟩
      · simp [h2] at hs
      simp only [h2, Option.some.injEq, Prod.mk.injEq] at hs
      rw [← hs.1]
      exact (plain_op o hp.1 ws ws2 t h1).append (plain_ops os hp.2 ws2 ws3 u h2)

theorem plain_ops : ∀ (os : List Op), PlainOs os → ∀ (ws ws' : WS) (ss : List CStmt), astOps ws os = some (ss, ws') →
    PlainCs ss
  | [], _, ws, ws', ss, h => by
    simp only [astOps, Option.some.injEq, Prod.mk.injEq] at h
    rw [← h.1]; trivial
  | o :: os, hp, ws, ws', ss, h => by
    simp only [astOps] at h
    rcases h1 : astOp ws o with - | ⟨t, ws2⟩
    · simp [h1] at h
    simp only [h1] at h
    rcases h2 : astOps ws2 os with - | ⟨u, ws3⟩
    · simp [h2] at h
    simp only [h2, Option.some.injEq, Prod.mk.injEq] at h
    rw [← h.1]
    exact (plain_op o hp.1 ws ws2 t h1).append (plain_ops os hp.2 ws2 ws3 u h2)

theorem plain_overloads : ∀ (os : List Overload), PlainOvs os → ∀ (ws ws' : WS) (ls : List Lambda),
    astOverloads ws os = some (ls, ws') → ls.length = os.length ∧ PlainLs ls
  | [], _, ws, ws', ls, h => by
    simp only [astOverloads, Option.some.injEq, Prod.mk.injEq] at h
    rw [← h.1]; exact ⟨rfl, trivial⟩
  | .mk type a body :: os, hp, ws, ws', ls, h => by
    obtain ⟨ht, hb, hos⟩ := hp
    simp only [astOverloads, astOverload] at h
    rcases h1 : astOps (ws.fresh a .arg).2 body with - | ⟨b, ws1⟩
    · simp [h1] at h
    simp only [h1] at h
    rcases h2 : astOverloads ws1 os with - | ⟨us, ws2⟩
    · simp [h2] at h
    simp only [h2, Option.some.injEq, Prod.mk.injEq] at h
    obtain ⟨q1, q2⟩ := plain_overloads os hos ws1 ws2 us h2
    rw [← h.1]
    exact ⟨by simp [q1], ⟨ht, plain_ops body hb _ _ _ h1⟩, q2⟩
end

/-! ### The front end -/

/-- Adds plain operations only. -/
def Keeps (m : M) : Prop := ∀ st st', PlainOs st.cur → m st = some st' → PlainOs st'.cur

theorem PlainOs.snoc : ∀ {a : List Op} {o : Op}, PlainOs a → PlainO o → PlainOs (a ++ [o])
  | [], _, _, ho => ⟨ho, trivial⟩
  | _ :: _, _, ha, ho => ⟨ha.1, PlainOs.snoc ha.2 ho⟩

theorem keeps_then {a b : M} (ha : Keeps a) (hb : Keeps b) : Keeps (M.then a b) := by
  intro st st' hp h
  simp only [M.then, Option.bind_eq_some_iff] at h
  obtain ⟨st1, h1, h2⟩ := h
  exact hb st1 st' (ha st st1 hp h1) h2

theorem keeps_close : Keeps closePrev := by
  intro st st' hp h
  simp only [closePrev] at h
  split at h
  · simp only [Option.some.injEq] at h
    subst h
    exact ⟨hp, trivial⟩
  · simp only [Option.some.injEq] at h
    subst h
    exact hp

theorem keeps_emit {o : Op} (ho : PlainO o) : Keeps (emit o) := by
  intro st st' hp h
  simp only [emit] at h
  split at h
  · cases h
  · simp only [Option.some.injEq] at h
    subst h
    exact hp.snoc ho

theorem keeps_none : Keeps fun _ => none := by
  intro st st' _ h
  cases h

theorem plain_region {m : M} (hm : Keeps m) {n n' : Nat} {b : List Op} (h : region m n = some (b, n')) : PlainOs b := by
  simp only [region] at h
  rcases h1 : m ⟨[], n⟩ with - | st
  · simp [h1] at h
  simp only [h1] at h
  split at h
  · simp only [Option.some.injEq, Prod.mk.injEq] at h
    rw [← h.1]
    exact hm ⟨[], n⟩ st (show PlainOs [] from trivial) h1
  · cases h

theorem keeps_matchKey {store : Val} (hs : PlainV store) {key : Option Val} (hk : PlainOV key) {k : Val → M}
    (h : ∀ n, Keeps (k (.id n))) : Keeps (matchKey store key k) := by
  intro st st' hp he
  simp only [matchKey] at he
  rcases h1 : region (k (.id st.next)) (st.next + 1) with - | ⟨b, n⟩
  · simp [h1] at he
  simp only [h1] at he
  have hb := plain_region (h st.next) h1
  refine keeps_emit (o := .matchOp store key [.mk [] st.next b]) ?_ { st with next := n } st' hp he
  exact ⟨hs, hk, by simp, .inl rfl, hb, trivial⟩

theorem keeps_buildGet {o : Val} (ho : PlainV o) (hn : noInt o) {key : Val} (hk : PlainV key) {k : Val → M}
    (h : ∀ n, Keeps (k (.id n))) : Keeps (buildGet o key k) := by
  intro st st' hp he
  simp only [buildGet, Option.bind_eq_some_iff] at he
  obtain ⟨st1, h1, h2⟩ := he
  exact h _ _ _ (keeps_emit (o := .get st.next o (some key)) ⟨ho, hn, hk⟩ { st with next := st.next + 1 } st1 hp h1) h2

/-- What can be visited. -/
def Visitable (f : Val) (as : List Val) : Prop :=
  PlainV f ∧ noInt f ∧ (∀ a ∈ as, PlainV a) ∧ ((∃ m, f = .member m) → ∀ v ∈ as.head?, noInt v)

theorem keeps_buildVisit {f : Val} {as : List Val} (hf : Visitable f as) {k : Val → M} (h : ∀ n, Keeps (k (.id n))) :
    Keeps (buildVisit f as k) := by
  intro st st' hp he
  simp only [buildVisit, Option.bind_eq_some_iff] at he
  obtain ⟨st1, h1, h2⟩ := he
  exact h _ _ _ (keeps_emit (o := .visit st.next false f as) hf { st with next := st.next + 1 } st1 hp h1) h2

theorem keeps_buildCall {f : Val} {as : List Val} (hf : Visitable f as) : Keeps (buildCall f as) := by
  intro st st' hp he
  simp only [buildCall, Option.bind_eq_some_iff] at he
  obtain ⟨st1, h1, h2⟩ := he
  exact keeps_emit (o := .discard) trivial _ _
    (keeps_emit (o := .visit st.next true f as) hf { st with next := st.next + 1 } st1 hp h1) h2

/-- The value an expression stands for. -/
def Stands (e : Expr) (v : Val) : Prop :=
  PlainV v ∧ ((∀ i, e ≠ .num i) → noInt v) ∧ ((∃ m, v = .member m) → (calleeMember e).isSome = true)

/-- The values expressions stand for. -/
def StandAll (es : List Expr) (vs : List Val) : Prop :=
  (∀ v ∈ vs, PlainV v) ∧ ((∀ i, es.head? ≠ some (.num i)) → ∀ v ∈ vs.head?, noInt v)

theorem no_member {v : Val} {p : Prop} (h : ∀ m, v ≠ .member m) : (∃ m, v = .member m) → p := by
  rintro ⟨m, e⟩
  exact absurd e (h m)

theorem stands_id (e : Expr) (n : Nat) : Stands e (.id n) :=
  ⟨trivial, (fun _ _ h => nomatch h), no_member (fun _ h => nomatch h)⟩

theorem keeps_withVar {Γ : Env Nat Nat} {x : Nat} {k : Val → M} (h : ∀ n, Keeps (k (.id n))) : Keeps (withVar Γ x k) := by
  intro st st' hp he
  simp only [withVar] at he
  split at he
  · cases he
  · exact h _ _ _ hp he

theorem constant_stands {plus : Bool} {e : Expr} (he : plainExpr e) {v : Val} (h : constant plus e = some v) :
    Stands e v := by
  cases e with
  | var x => simp [constant] at h
  | path => simp [constant] at h
  | visit => simp [constant] at h
  | num i =>
    simp only [constant] at h
    split at h
    · simp only [Option.some.injEq] at h
      subst h
      exact ⟨trivial, (fun hn => absurd rfl (hn i)), no_member (fun _ h => nomatch h)⟩
    · cases h
  | str s =>
    simp only [constant, Option.some.injEq] at h
    subst h
    simp only [plainExpr] at he
    exact ⟨he, (fun _ _ h => nomatch h), no_member (fun _ h => nomatch h)⟩
  | sym t =>
    by_cases hd : ∃ m, t = '.' :: m
    · obtain ⟨m, rfl⟩ := hd
      simp only [constant] at h
      split at h
      · simp only [Option.some.injEq] at h
        subst h
        have hm : plainWord m := by simpa [plainExpr, memberName] using he
        exact ⟨hm, (fun _ _ h => nomatch h), fun _ => rfl⟩
      · cases h
    · have hmn : memberName t = none := by
        unfold memberName
        split
        · next m => exact absurd ⟨m, rfl⟩ hd
        · rfl
      have hs : plainSymbol t := by simpa [plainExpr, hmn] using he
      have hv : v = .cexpr t := by
        unfold constant at h
        split at h
        · cases h
        · next m e =>
          simp only [Expr.sym.injEq] at e
          exact absurd ⟨m, e⟩ hd
        · next e =>
          simp only [Expr.sym.injEq] at e
          subst e
          simpa using h.symm
        · next e => cases e
        · next e => cases e
        · cases h
      subst hv
      exact ⟨hs, (fun _ _ h => nomatch h), no_member (fun _ h => nomatch h)⟩

theorem keeps_withConstant {plus : Bool} {e : Expr} (he : plainExpr e) {k : Val → M}
    (h : ∀ v, Stands e v → Keeps (k v)) : Keeps (withConstant plus e k) := by
  intro st st' hp hs
  simp only [withConstant] at hs
  split at hs
  · cases hs
  · next v hc =>
    simp only [Option.bind_eq_some_iff] at hs
    obtain ⟨st1, h1, h2⟩ := hs
    exact h v (constant_stands he hc) _ _ (keeps_emit (o := .pure) trivial _ _ hp h1) h2

mutual
theorem keeps_resolve (Γ : Env Nat Nat) (plus : Bool) : ∀ (e : Expr), plainExpr e → ∀ (k : Val → M),
    (∀ v, Stands e v → Keeps (k v)) → Keeps (resolve Γ plus e k)
  | .var x, _, k, h => by
    rw [resolve]
    exact keeps_withVar fun n => h _ (stands_id _ n)
  | .sym t, he, k, h => by rw [resolve]; exact keeps_withConstant he h
  | .num i, he, k, h => by rw [resolve]; exact keeps_withConstant he h
  | .str s, he, k, h => by rw [resolve]; exact keeps_withConstant he h
  | .path root [], _, k, h => by
    rw [resolve]
    exact keeps_withVar fun n => h _ (stands_id _ n)
  | .path root (key :: keys), he, k, h => by
    rw [resolve]
    exact keeps_withVar fun n => keeps_pathNodes Γ (key :: keys) (by simpa [plainExpr] using he) (.id n) trivial k
      fun n => h _ (stands_id _ n)
  | .visit callee args, he, k, h => by
    simp only [plainExpr] at he
    obtain ⟨h1, h2, h3, h4⟩ := he
    rw [resolve]
    refine keeps_then keeps_close (keeps_resolve Γ true callee h1 _ fun f hf => ?_)
    refine keeps_resolveAll Γ args h2 _ fun vs hvs => keeps_buildVisit ?_ fun n => h _ (stands_id _ n)
    exact ⟨hf.1, hf.2.1 h3, hvs.1, fun hm => hvs.2 (h4 (hf.2.2 hm))⟩

theorem keeps_resolveAll (Γ : Env Nat Nat) : ∀ (es : List Expr), plainExprs es → ∀ (k : List Val → M),
    (∀ vs, StandAll es vs → Keeps (k vs)) → Keeps (resolveAll Γ es k)
  | [], _, k, h => by
    rw [resolveAll]
    exact h [] ⟨by simp, by simp⟩
  | e :: es, he, k, h => by
    simp only [plainExprs] at he
    rw [resolveAll]
    refine keeps_resolve Γ false e he.1 _ fun v hv => keeps_resolveAll Γ es he.2 _ fun vs hvs => h _ ⟨?_, ?_⟩
    · intro u hu
      rcases List.mem_cons.1 hu with rfl | hu
      · exact hv.1
      · exact hvs.1 u hu
    · intro hn u hu
      simp only [List.head?_cons, Option.mem_def, Option.some.injEq] at hu
      subst hu
      exact hv.2.1 fun i e' => hn i (by rw [e']; rfl)

theorem keeps_pathNodes (Γ : Env Nat Nat) : ∀ (es : List Expr), plainExprs es → ∀ (store : Val), PlainV store →
    ∀ (k : Val → M), (∀ n, Keeps (k (.id n))) → Keeps (pathNodes Γ store es k)
  | [], _, store, hs, k, h => by
    rw [pathNodes]
    exact keeps_matchKey (key := none) hs trivial h
  | e :: es, he, store, hs, k, h => by
    simp only [plainExprs] at he
    rw [pathNodes]
    exact keeps_pathNode Γ e he.1 store hs _ fun n => keeps_pathNodes Γ es he.2 (.id n) trivial k h

theorem keeps_pathNode (Γ : Env Nat Nat) : ∀ (e : Expr), plainExpr e → ∀ (store : Val), PlainV store →
    ∀ (k : Val → M), (∀ n, Keeps (k (.id n))) → Keeps (pathNode Γ store e k)
  | .sym t, he, store, hs, k, h => by
    rw [pathNode]
    refine keeps_then keeps_close (keeps_withConstant he fun v hv => ?_)
    split
    · next m =>
      exact keeps_matchKey (key := none) hs trivial fun n => keeps_buildGet (o := .id n) trivial (fun _ h => nomatch h) hv.1 h
    · exact keeps_matchKey (key := some v) hs hv.1 h
  | .num i, he, store, hs, k, h => by
    rw [pathNode]
    exact keeps_then keeps_close (keeps_withConstant he fun v hv => keeps_matchKey (key := some v) hs hv.1 h)
  | .str s, he, store, hs, k, h => by
    rw [pathNode]
    exact keeps_then keeps_close (keeps_withConstant he fun v hv => keeps_matchKey (key := some v) hs hv.1 h)
  | .var x, _, store, hs, k, h => by
    rw [pathNode]
    exact keeps_then keeps_close (keeps_withVar fun n => keeps_matchKey (key := some (.id n)) hs trivial h)
  | .path root [], _, store, hs, k, h => by
    rw [pathNode]
    exact keeps_then keeps_close (keeps_withVar fun n => keeps_then keeps_close (keeps_matchKey (key := some (.id n)) hs trivial h))
  | .path root (key :: keys), he, store, hs, k, h => by
    rw [pathNode]
    refine keeps_then keeps_close (keeps_withVar fun n => ?_)
    exact keeps_pathNodes Γ (key :: keys) (by simpa [plainExpr] using he) (.id n) trivial _
      fun n => keeps_then keeps_close (keeps_matchKey (key := some (.id n)) hs trivial h)
  | .visit _ _, _, _, _, _, _ => by
    rw [pathNode]
    exact keeps_none
end

mutual
theorem keeps_stmt : ∀ (s : Stmt), plainStmt s → ∀ (Γ : Env Nat Nat) (g : Nat), Keeps (compileStmt Γ (.id g) s)
  | .call args, hp, Γ, g => by
    simp only [plainStmt] at hp
    rw [compileStmt]
    split
    · exact keeps_none
    · refine keeps_then keeps_close (keeps_resolveAll Γ args hp _ fun vs hvs => keeps_buildCall ?_)
      exact ⟨trivial, (fun _ h => nomatch h), hvs.1, no_member (fun _ h => nomatch h)⟩
  | .visit callee args, hp, Γ, g => by
    simp only [plainStmt, plainExpr] at hp
    obtain ⟨h1, h2, h3, h4⟩ := hp
    rw [compileStmt]
    refine keeps_then keeps_close (keeps_resolve Γ true callee h1 _ fun f hf => ?_)
    refine keeps_resolveAll Γ args h2 _ fun vs hvs => keeps_buildCall ?_
    exact ⟨hf.1, hf.2.1 h3, hvs.1, fun hm => hvs.2 (h4 (hf.2.2 hm))⟩
  | .matchPath path clauses, hp, Γ, g => by
    simp only [plainStmt] at hp
    rw [compileStmt]
    split
    · exact keeps_none
    · next hc =>
      refine keeps_resolve Γ false path hp.1 _ fun v hv => keeps_then keeps_close ?_
      intro st st' hst h
      simp only at h
      rcases h1 : compileClauses Γ (.id g) clauses st.next with - | ⟨os, n⟩
      · simp [h1] at h
      simp only [h1] at h
      obtain ⟨q1, q2⟩ := plain_clauses clauses hp.2 Γ g st.next n os h1
      refine keeps_emit (o := .matchOp v none os) ⟨hv.1, trivial, ?_, q2⟩ { st with next := n } st' hst h
      intro e
      subst e
      cases clauses with
      | nil => simp at hc
      | cons => simp at q1
  | .matchIf cond thn els, hp, Γ, g => by
    simp only [plainStmt] at hp
    rw [compileStmt]
    refine keeps_resolve Γ false cond hp.1 _ fun v hv => ?_
    intro st st' hst h
    simp only at h
    rcases h1 : region (compileStmts Γ (.id g) thn) st.next with - | ⟨t, n⟩
    · simp [h1] at h
    simp only [h1] at h
    rcases h2 : region (compileStmts Γ (.id g) els) n with - | ⟨e, n'⟩
    · simp [h2] at h
    simp only [h2] at h
    exact keeps_emit (o := .matchIf v t e) ⟨hv.1, plain_region (keeps_stmts thn hp.2.1 Γ g) h1,
      plain_region (keeps_stmts els hp.2.2 Γ g) h2⟩ { st with next := n' } st' hst h
  | .noop x, _, Γ, g => by
    rw [compileStmt]
    exact keeps_withVar fun n => keeps_emit (o := .noop (.id n)) trivial

theorem keeps_stmts : ∀ (ss : List Stmt), plainStmts ss → ∀ (Γ : Env Nat Nat) (g : Nat),
    Keeps (compileStmts Γ (.id g) ss)
  | [], _, Γ, g => by
    rw [compileStmts]
    intro st st' hp h
    simp only [Option.some.injEq] at h
    rw [← h]; exact hp
  | s :: ss, hp, Γ, g => by
    simp only [plainStmts] at hp
    rw [compileStmts]
    exact keeps_then (keeps_stmt s hp.1 Γ g) (keeps_stmts ss hp.2 Γ g)

theorem plain_clauses : ∀ (cs : List Clause), plainClauses cs → ∀ (Γ : Env Nat Nat) (g n n' : Nat) (os : List Overload),
    compileClauses Γ (.id g) cs n = some (os, n') → os.length = cs.length ∧ PlainOvs os
  | [], _, Γ, g, n, n', os, h => by
    simp only [compileClauses, Option.some.injEq, Prod.mk.injEq] at h
    rw [← h.1]; exact ⟨rfl, trivial⟩
  | .mk type x body :: cs, hp, Γ, g, n, n', os, h => by
    simp only [plainClauses] at hp
    simp only [compileClauses] at h
    rcases h1 : region (compileStmts (Γ.set x n) (.id g) body) (n + 1) with - | ⟨b, n1⟩
    · simp [h1] at h
    simp only [h1] at h
    rcases h2 : compileClauses Γ (.id g) cs n1 with - | ⟨us, n2⟩
    · simp [h2] at h
    simp only [h2, Option.some.injEq, Prod.mk.injEq] at h
    obtain ⟨q1, q2⟩ := plain_clauses cs hp.2.2 Γ g n1 n2 us h2
    rw [← h.1]
    exact ⟨by simp [q1], hp.1, plain_region (keeps_stmts body hp.2.1 _ g) h1, q2⟩
end

/-- What is written for a plain description is plain. -/
theorem plain_func (f : Fn) (hp : plainFn f) (fn : Func) (cf : CFunc) (hf : compileFn f = some fn)
    (hc : astFunc fn = some cf) : PlainF cf := by
  simp only [compileFn] at hf
  split at hf
  · cases hf
  rcases hr : region (compileStmts (storeEnv f.stores) (.id f.stores) f.body) (f.stores + 1) with - | ⟨body, nx⟩
  · simp [hr] at hf
  simp only [hr, Option.some.injEq] at hf
  subst hf
  simp only [astFunc] at hc
  rcases hb : astOps (freshArgs ⟨0, []⟩ (List.range (f.stores + 1))).2 body with - | ⟨b, ws'⟩
  · simp [hb] at hc
  simp only [hb, Option.some.injEq] at hc
  subst hc
  refine ⟨hp.1, ?_, plain_ops body (plain_region (keeps_stmts f.body hp.2 _ _) hr) _ _ _ hb⟩
  rw [List.range_eq_range', (freshArgs_names 0 (f.stores + 1) []).1]
  simp

end Nbdl.Reader
