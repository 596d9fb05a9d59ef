import Verif.Dsl.Trans
/-!
# The tree does what the operations say
-/
namespace Nbdl.Dsl

variable {σ V : Type}

/-! ### Well formed operations: every identity is defined once -/

/-- The identities a value refers to are below `n`. -/
def Val.under (n : Nat) : Val → Prop
  | .id i => i < n
  | .const v => v.under n
  | _ => True

/-- The same for a key. -/
def keyBelow (n : Nat) : Option Val → Prop
  | none => True
  | some v => v.under n

/-- An `nbdl.match_if` at the head of an else block is alone in it. -/
def elseOk : List Op → Prop
  | .matchIf _ _ _ :: rest => rest = []
  | _ => True

mutual
/-- The identities defined in an operation are new: they lie in `[lo, hi)`. -/
def wfOp (lo hi : Nat) : Op → Prop
  | .get r o k => lo ≤ r ∧ r < hi ∧ o.under r ∧ keyBelow r k
  | .visit r _ f as => lo ≤ r ∧ r < hi ∧ f.under r ∧ ∀ a ∈ as, a.under r
  | .compose r k l p => lo ≤ r ∧ r < hi ∧ keyBelow r k ∧ l.under r ∧ p.under r
  | .matchOp _ _ os => wfOverloads lo hi os
  | .matchIf _ t e => (∃ mid, wfOps lo mid t ∧ wfOps mid hi e) ∧ elseOk e
  | .scope b => wfOps lo hi b
  | _ => lo ≤ hi

/-- The same for a block. -/
def wfOps (lo hi : Nat) : List Op → Prop
  | [] => lo ≤ hi
  | o :: os => ∃ mid, wfOp lo mid o ∧ wfOps mid hi os

/-- The same for overloads. -/
def wfOverloads (lo hi : Nat) : List Overload → Prop
  | [] => lo ≤ hi
  | .mk _ a b :: os => ∃ mid, lo ≤ a ∧ wfOps (a + 1) mid b ∧ wfOverloads mid hi os
end

/-! ### Names -/

mutual
/-- The names a statement declares, in order. -/
def CStmt.names : CStmt → List Name
  | .get x _ _ => [x]
  | .member x _ _ => [x]
  | .call x _ _ => x.toList
  | .mcall x _ _ _ => x.toList
  | .compose x _ _ _ => [x]
  | .void _ => []
  | .matchOne _ _ l => l.names
  | .matchAll _ _ ls => lambdaNames ls
  | .ite _ t e => stmtsNames t ++ e.names

/-- The names declared after `else`. -/
def CElse.names : CElse → List Name
  | .chain _ t e => stmtsNames t ++ e.names
  | .block b => stmtsNames b

/-- The parameter of a lambda and the names declared in it. -/
def Lambda.names : Lambda → List Name
  | .mk _ x body => x :: stmtsNames body

/-- The names of some lambdas. -/
def lambdaNames : List Lambda → List Name
  | [] => []
  | l :: ls => l.names ++ lambdaNames ls

/-- The names declared in a block. -/
def stmtsNames : List CStmt → List Name
  | [] => []
  | s :: ss => s.names ++ stmtsNames ss
end

theorem stmtsNames_append (a b : List CStmt) : stmtsNames (a ++ b) = stmtsNames a ++ stmtsNames b := by
  induction a with
  | nil => simp [stmtsNames]
  | cons x xs ih => simp [stmtsNames, ih]

/-- Numbers in increasing order, from `a` to below `b`. -/
def NamesIn (a b : Nat) (l : List Name) : Prop :=
  a ≤ b ∧ l.Pairwise (fun x y => x.n < y.n) ∧ ∀ x ∈ l, a ≤ x.n ∧ x.n < b

theorem NamesIn.append {a b c : Nat} {l m : List Name} (h1 : NamesIn a b l) (h2 : NamesIn b c m) :
    NamesIn a c (l ++ m) := by
  obtain ⟨h11, h12, h13⟩ := h1
  obtain ⟨h21, h22, h23⟩ := h2
  refine ⟨by omega, List.pairwise_append.2 ⟨h12, h22, ?_⟩, ?_⟩
  · intro x hx y hy
    have := h13 x hx; have := h23 y hy; omega
  · intro x hx
    rcases List.mem_append.1 hx with hx | hx
    · have := h13 x hx; omega
    · have := h23 x hx; omega

theorem NamesIn.nil {a b : Nat} (h : a ≤ b) : NamesIn a b [] := ⟨h, by simp, by simp⟩

theorem NamesIn.one (a : Nat) (k : Kind) : NamesIn a (a + 1) [⟨k, a⟩] :=
  ⟨by omega, by simp, by simp⟩

theorem NamesIn.cons {a b : Nat} {k : Kind} {l : List Name} (h : NamesIn (a + 1) b l) :
    NamesIn a b (⟨k, a⟩ :: l) := (NamesIn.one a k).append h

/-! ### The table of names -/

/-- Every name in the table has a number below the counter. -/
def Bound (ws : WS) : Prop := ∀ p ∈ ws.map, p.2.n < ws.cnt

/-- The names of the identities below `lo` are kept. -/
def MapExt (lo : Nat) (ws ws' : WS) : Prop := ∀ n < lo, ws'.find n = ws.find n

theorem lookup_mem {l : List (Nat × Name)} {n : Nat} {x : Name} (h : l.lookup n = some x) : (n, x) ∈ l := by
  induction l with
  | nil => simp at h
  | cons p l ih =>
    rcases p with ⟨m, y⟩
    simp only [List.lookup_cons] at h
    by_cases hm : n = m
    · subst hm; simp at h; simp [h]
    · have : (n == m) = false := by simp [hm]
      rw [this] at h
      exact List.mem_cons_of_mem _ (ih h)

theorem Bound.find {ws : WS} (h : Bound ws) {n : Nat} {x : Name} (hx : ws.find n = some x) : x.n < ws.cnt :=
  h _ (lookup_mem hx)

theorem fresh_cnt (ws : WS) (r : Nat) (k : Kind) : (ws.fresh r k).2.cnt = ws.cnt + 1 := rfl
theorem fresh_name (ws : WS) (r : Nat) (k : Kind) : (ws.fresh r k).1 = ⟨k, ws.cnt⟩ := rfl

theorem fresh_bound {ws : WS} (h : Bound ws) (r : Nat) (k : Kind) : Bound (ws.fresh r k).2 := by
  intro p hp
  simp only [WS.fresh, List.mem_cons] at hp ⊢
  rcases hp with rfl | hp
  · simp
  · have := h p hp; omega

theorem fresh_find_self (ws : WS) (r : Nat) (k : Kind) : (ws.fresh r k).2.find r = some ⟨k, ws.cnt⟩ := by
  simp [WS.fresh, WS.find]

theorem fresh_find_ne (ws : WS) (r : Nat) (k : Kind) {n : Nat} (h : n ≠ r) :
    (ws.fresh r k).2.find n = ws.find n := by
  have : (n == r) = false := by simp [h]
  simp [WS.fresh, WS.find, List.lookup_cons, this]

theorem fresh_mapExt (ws : WS) {r lo : Nat} (k : Kind) (h : lo ≤ r) : MapExt lo ws (ws.fresh r k).2 := by
  intro n hn
  exact fresh_find_ne ws r k (by omega)

theorem MapExt.trans {lo lo' : Nat} {a b c : WS} (h1 : MapExt lo a b) (h2 : MapExt lo' b c) (h : lo ≤ lo') :
    MapExt lo a c := fun n hn => (h2 n (by omega)).trans (h1 n hn)

theorem MapExt.refl (lo : Nat) (a : WS) : MapExt lo a a := fun _ _ => rfl

theorem below_mono {a b : Nat} (h : a ≤ b) : ∀ {v : Val}, v.under a → v.under b
  | .id _, hv => by simp only [Val.under] at *; omega
  | .const v, hv => by simp only [Val.under] at *; exact below_mono h hv
  | .lit _, _ => trivial
  | .cexpr _, _ => trivial
  | .member _, _ => trivial
  | .unit, _ => trivial

theorem astExpr_fresh (ws : WS) (r : Nat) (k : Kind) : ∀ v : Val, v.under r →
    astExpr (ws.fresh r k).2 v = astExpr ws v
  | .id n, h => by
    simp only [Val.under] at h
    simp only [astExpr, fresh_find_ne ws r k (by omega : n ≠ r)]
  | .const v, h => by
    simp only [Val.under] at h
    simp only [astExpr, astExpr_fresh ws r k v h]
  | .lit (.int _), _ => rfl
  | .lit (.str _), _ => rfl
  | .cexpr _, _ => rfl
  | .member _, _ => rfl
  | .unit, _ => rfl

theorem astExprs_fresh (ws : WS) (r : Nat) (k : Kind) : ∀ vs : List Val, (∀ v ∈ vs, v.under r) →
    astExprs (ws.fresh r k).2 vs = astExprs ws vs
  | [], _ => rfl
  | v :: vs, h => by
    simp only [astExprs, astExpr_fresh ws r k v (h v (by simp)),
      astExprs_fresh ws r k vs fun u hu => h u (by simp [hu])]

theorem astKey_fresh (ws : WS) (r : Nat) (k : Kind) (key : Option Val) (h : keyBelow r key) :
    astKey (ws.fresh r k).2 key = astKey ws key := by
  rcases key with - | v
  · rfl
  · simp only [keyBelow] at h
    cases v <;> simp only [astKey] <;> rw [astExpr_fresh ws r k _ h]

/-- What writing changes in the table, and the names it declares. -/
structure Static (lo hi : Nat) (ws ws' : WS) (names : List Name) : Prop where
  le : lo ≤ hi
  bound : Bound ws'
  ext : MapExt lo ws ws'
  names : NamesIn ws.cnt ws'.cnt names

theorem Static.cnt {lo hi : Nat} {ws ws' : WS} {l : List Name} (h : Static lo hi ws ws' l) : ws.cnt ≤ ws'.cnt :=
  h.names.1

theorem Static.refl {lo hi : Nat} {ws : WS} (h : lo ≤ hi) (hb : Bound ws) : Static lo hi ws ws [] :=
  ⟨h, hb, MapExt.refl _ _, NamesIn.nil (Nat.le_refl _)⟩

theorem Static.one {lo hi r : Nat} {ws : WS} {k : Kind} (h1 : lo ≤ r) (h2 : r < hi) (hb : Bound ws) :
    Static lo hi ws (ws.fresh r k).2 [(ws.fresh r k).1] :=
  ⟨by omega, fresh_bound hb r k, fresh_mapExt ws k h1, NamesIn.one ws.cnt k⟩

theorem Static.trans {lo mid hi : Nat} {a b c : WS} {l m : List Name} (h1 : Static lo mid a b l)
    (h2 : Static mid hi b c m) : Static lo hi a c (l ++ m) :=
  ⟨Nat.le_trans h1.le h2.le, h2.bound, h1.ext.trans h2.ext h1.le, h1.names.append h2.names⟩

theorem resName_static {lo hi r : Nat} {ws : WS} (u : Bool) (h1 : lo ≤ r) (h2 : r < hi) (hb : Bound ws) :
    Static lo hi ws (resName ws u r).2 (resName ws u r).1.toList := by
  cases u
  · exact Static.one h1 h2 hb
  · exact Static.refl (by omega) hb

/-- An operation that is no `nbdl.match_if`. -/
def Op.isIf : Op → Bool
  | .matchIf _ _ _ => true
  | _ => false

theorem astElse_block (ws : WS) (o : Op) (os : List Op) (h : o.isIf = false) :
    astElse ws (o :: os) = (astOps ws (o :: os)).map fun p => (.block p.1, p.2) := by
  rcases ho : astOp ws o with - | ⟨t, ws'⟩
  · cases o <;> first | (simp [Op.isIf] at h; done) | simp [astElse, astOps, ho]
  · rcases hs : astOps ws' os with - | ⟨u, ws''⟩ <;>
      cases o <;> first | (simp [Op.isIf] at h; done) | simp [astElse, astOps, ho, hs]

theorem astElse_if (ws : WS) (c : Val) (t e : List Op) :
    astElse ws [.matchIf c t e] = match astExpr ws c with
      | none => none
      | some c =>
        match astOps ws t with
        | none => none
        | some (t, ws) =>
          match astElse ws e with
          | none => none
          | some (e, ws) => some (.chain c t e, ws) := by
  simp only [astElse]; rfl

theorem astOp_if (ws : WS) (c : Val) (t e : List Op) :
    astOp ws (.matchIf c t e) = match astExpr ws c with
      | none => none
      | some c =>
        match astOps ws t with
        | none => none
        | some (t, ws) =>
          match astElse ws e with
          | none => none
          | some (e, ws) => some ([.ite c t e], ws) := by
  simp only [astOp]; rfl

theorem astOp_get (ws : WS) (r : Nat) (o : Val) (k : Option Val) {ss : List CStmt} {ws' : WS}
    (h : astOp ws (.get r o k) = some (ss, ws')) :
    ws' = (ws.fresh r .get).2 ∧ ∃ e, astExpr (ws.fresh r .get).2 o = some e ∧
      ((∃ m, k = some (.member m) ∧ ss = [.member (ws.fresh r .get).1 e m]) ∨
       ((∀ m, k ≠ some (.member m)) ∧ ∃ ke, astKey (ws.fresh r .get).2 k = some ke ∧
          ss = [.get (ws.fresh r .get).1 e ke])) := by
  by_cases hm : ∃ m, k = some (.member m)
  · obtain ⟨m, rfl⟩ := hm
    simp only [astOp] at h
    rcases he : astExpr (ws.fresh r .get).2 o with - | e
    · simp [he] at h
    · simp only [he, Option.some.injEq, Prod.mk.injEq] at h
      exact ⟨h.2.symm, e, rfl, .inl ⟨m, rfl, h.1.symm⟩⟩
  · have h2 : astOp ws (.get r o k) = (match astExpr (ws.fresh r .get).2 o with
        | none => none
        | some o =>
          match astKey (ws.fresh r .get).2 k with
          | none => none
          | some k => some ([.get (ws.fresh r .get).1 o k], (ws.fresh r .get).2)) := by
      rcases k with - | v
      · simp only [astOp]; rfl
      · cases v <;> first | (exact absurd ⟨_, rfl⟩ hm) | (simp only [astOp]; rfl)
    rw [h2] at h
    rcases he : astExpr (ws.fresh r .get).2 o with - | e
    · simp [he] at h
    · simp only [he] at h
      rcases hk : astKey (ws.fresh r .get).2 k with - | ke
      · simp [hk] at h
      · simp only [hk, Option.some.injEq, Prod.mk.injEq] at h
        exact ⟨h.2.symm, e, rfl, .inr ⟨fun m hm' => hm ⟨m, hm'⟩, ke, rfl, h.1.symm⟩⟩

theorem astOp_visit (ws : WS) (r : Nat) (u : Bool) (f : Val) (as : List Val) {ss : List CStmt} {ws' : WS}
    (h : astOp ws (.visit r u f as) = some (ss, ws')) :
    ws' = (resName ws u r).2 ∧
      ((∃ m, f = .member m ∧ ∃ o es, astExprs (resName ws u r).2 as = some (o :: es) ∧
          ss = [.mcall (resName ws u r).1 o m es]) ∨
       ((∀ m, f ≠ .member m) ∧ ∃ e es, astExpr (resName ws u r).2 f = some e ∧
          astExprs (resName ws u r).2 as = some es ∧ ss = [.call (resName ws u r).1 e es])) := by
  by_cases hm : ∃ m, f = .member m
  · obtain ⟨m, rfl⟩ := hm
    simp only [astOp] at h
    rcases he : astExprs (resName ws u r).2 as with - | es
    · simp [he] at h
    · rcases es with - | ⟨o, es⟩
      · simp [he] at h
      · simp only [he, Option.some.injEq, Prod.mk.injEq] at h
        exact ⟨h.2.symm, .inl ⟨m, rfl, o, es, rfl, h.1.symm⟩⟩
  · have h2 : astOp ws (.visit r u f as) = (match astExpr (resName ws u r).2 f with
        | none => none
        | some f =>
          match astExprs (resName ws u r).2 as with
          | none => none
          | some es => some ([.call (resName ws u r).1 f es], (resName ws u r).2)) := by
      cases f <;> first | (exact absurd ⟨_, rfl⟩ hm) | (simp only [astOp]; rfl)
    rw [h2] at h
    rcases he : astExpr (resName ws u r).2 f with - | e
    · simp [he] at h
    · simp only [he] at h
      rcases hk : astExprs (resName ws u r).2 as with - | ke
      · simp [hk] at h
      · simp only [hk, Option.some.injEq, Prod.mk.injEq] at h
        exact ⟨h.2.symm, .inr ⟨fun m hm' => hm ⟨m, hm'⟩, e, ke, rfl, rfl, h.1.symm⟩⟩

theorem astOp_compose (ws : WS) (r : Nat) (k : Option Val) (l p : Val) {ss : List CStmt} {ws' : WS}
    (h : astOp ws (.compose r k l p) = some (ss, ws')) :
    ws' = (ws.fresh r .result).2 ∧ ∃ ke pe le, astKey (ws.fresh r .result).2 k = some ke ∧
      astExpr (ws.fresh r .result).2 p = some pe ∧ astExpr (ws.fresh r .result).2 l = some le ∧
      ss = [.compose (ws.fresh r .result).1 ke pe le] := by
  simp only [astOp] at h
  rcases hk : astKey (ws.fresh r .result).2 k with - | ke
  · simp [hk] at h
  · rcases hp : astExpr (ws.fresh r .result).2 p with - | pe
    · simp [hk, hp] at h
    · rcases hl : astExpr (ws.fresh r .result).2 l with - | le
      · simp [hk, hp, hl] at h
      · simp only [hk, hp, hl, Option.some.injEq, Prod.mk.injEq] at h
        exact ⟨h.2.symm, ke, pe, le, rfl, rfl, rfl, h.1.symm⟩

theorem astOp_match (ws : WS) (st : Val) (k : Option Val) (os : List Overload) {ss : List CStmt} {ws' : WS}
    (h : astOp ws (.matchOp st k os) = some (ss, ws')) :
    ∃ e ke ls, astExpr ws st = some e ∧ astKey ws k = some ke ∧ astOverloads ws os = some (ls, ws') ∧
      ((∃ l, ls = [l] ∧ ss = [.matchOne e ke l]) ∨ ss = [.matchAll e ke ls]) := by
  rcases os with - | ⟨o, os⟩
  · simp only [astOp] at h
    rcases he : astExpr ws st with - | e
    · simp [he] at h
    · rcases hk : astKey ws k with - | ke
      · simp [he, hk] at h
      · simp only [he, hk, astOverloads, Option.some.injEq, Prod.mk.injEq] at h
        exact ⟨e, ke, [], rfl, rfl, by simp [astOverloads, h.2], .inr h.1.symm⟩
  · rcases os with - | ⟨p, os⟩
    · simp only [astOp] at h
      rcases he : astExpr ws st with - | e
      · simp [he] at h
      · rcases hk : astKey ws k with - | ke
        · simp [he, hk] at h
        · rcases ho : astOverload ws o with - | ⟨l, ws2⟩
          · simp [he, hk, ho] at h
          · simp only [he, hk, ho, Option.some.injEq, Prod.mk.injEq] at h
            exact ⟨e, ke, [l], rfl, rfl, by simp [astOverloads, ho, h.2], .inl ⟨l, rfl, h.1.symm⟩⟩
    · simp only [astOp] at h
      rcases he : astExpr ws st with - | e
      · simp [he] at h
      · rcases hk : astKey ws k with - | ke
        · simp [he, hk] at h
        · rcases ho : astOverloads ws (o :: p :: os) with - | ⟨ls, ws2⟩
          · simp [he, hk, ho] at h
          · simp only [he, hk, ho, Option.some.injEq, Prod.mk.injEq] at h
            exact ⟨e, ke, ls, rfl, rfl, by simp [h.2], .inr h.1.symm⟩

mutual
theorem op_static : ∀ (o : Op) (lo hi : Nat) (ws ws' : WS) (ss : List CStmt), wfOp lo hi o → Bound ws →
    astOp ws o = some (ss, ws') → Static lo hi ws ws' (stmtsNames ss)
  | .pure, lo, hi, ws, ws', ss, hw, hb, h => by
    simp only [astOp, Option.some.injEq, Prod.mk.injEq] at h
    obtain ⟨rfl, rfl⟩ := h
    exact Static.refl hw hb
  | .const _, lo, hi, ws, ws', ss, hw, hb, h => by simp [astOp] at h
  | .empty, lo, hi, ws, ws', ss, hw, hb, h => by simp [astOp] at h
  | .discard, lo, hi, ws, ws', ss, hw, hb, h => by
    simp only [astOp, Option.some.injEq, Prod.mk.injEq] at h
    obtain ⟨rfl, rfl⟩ := h
    exact Static.refl hw hb
  | .noop v, lo, hi, ws, ws', ss, hw, hb, h => by
    simp only [astOp, Option.map_eq_some_iff, Prod.mk.injEq] at h
    obtain ⟨e, -, rfl, rfl⟩ := h
    exact Static.refl hw hb
  | .get r o k, lo, hi, ws, ws', ss, hw, hb, h => by
    simp only [wfOp] at hw
    obtain ⟨rfl, e, -, ⟨m, -, rfl⟩ | ⟨-, ke, -, rfl⟩⟩ := astOp_get ws r o k h <;>
      exact Static.one hw.1 hw.2.1 hb
  | .visit r u f as, lo, hi, ws, ws', ss, hw, hb, h => by
    simp only [wfOp] at hw
    obtain ⟨rfl, ⟨m, -, o, es, -, rfl⟩ | ⟨-, e, es, -, -, rfl⟩⟩ := astOp_visit ws r u f as h <;>
    · simp only [stmtsNames, CStmt.names, List.append_nil]
      exact resName_static u hw.1 hw.2.1 hb
  | .compose r k l p, lo, hi, ws, ws', ss, hw, hb, h => by
    simp only [wfOp] at hw
    obtain ⟨rfl, ke, pe, le, -, -, -, rfl⟩ := astOp_compose ws r k l p h
    exact Static.one hw.1 hw.2.1 hb
  | .matchOp st k os, lo, hi, ws, ws', ss, hw, hb, h => by
    simp only [wfOp] at hw
    obtain ⟨e, ke, ls, -, -, ho, hs⟩ := astOp_match ws st k os h
    have := overloads_static os lo hi ws ws' ls hw hb ho
    rcases hs with ⟨l, rfl, rfl⟩ | rfl
    · simpa [stmtsNames, CStmt.names, lambdaNames] using this
    · simpa [stmtsNames, CStmt.names] using this
  | .matchIf c t e, lo, hi, ws, ws', ss, hw, hb, h => by
    simp only [wfOp] at hw
    obtain ⟨⟨mid, h1, h2⟩, h3⟩ := hw
    rw [astOp_if] at h
    rcases hc : astExpr ws c with - | ce
    · simp [hc] at h
    rcases ht : astOps ws t with - | ⟨tt, ws1⟩
    · simp [hc, ht] at h
    rcases he : astElse ws1 e with - | ⟨ee, ws2⟩
    · simp [hc, ht, he] at h
    simp only [hc, ht, he, Option.some.injEq, Prod.mk.injEq] at h
    obtain ⟨rfl, rfl⟩ := h
    have a := ops_static t lo mid ws ws1 tt h1 hb ht
    have b := else_static e mid hi ws1 ws2 ee h2 h3 a.bound he
    simpa [stmtsNames, CStmt.names] using a.trans b
  | .scope b, lo, hi, ws, ws', ss, hw, hb, h => by
    simp only [wfOp] at hw
    simp only [astOp] at h
    exact ops_static b lo hi ws ws' ss hw hb h

theorem ops_static : ∀ (os : List Op) (lo hi : Nat) (ws ws' : WS) (ss : List CStmt), wfOps lo hi os → Bound ws →
    astOps ws os = some (ss, ws') → Static lo hi ws ws' (stmtsNames ss)
  | [], lo, hi, ws, ws', ss, hw, hb, h => by
    simp only [astOps, Option.some.injEq, Prod.mk.injEq] at h
    obtain ⟨rfl, rfl⟩ := h
    exact Static.refl hw hb
  | o :: os, lo, hi, ws, ws', ss, hw, hb, h => by
    simp only [wfOps] at hw
    obtain ⟨mid, h1, h2⟩ := hw
    simp only [astOps] at h
    rcases ht : astOp ws o with - | ⟨t, ws1⟩
    · simp [ht] at h
    rcases hu : astOps ws1 os with - | ⟨u, ws2⟩
    · simp [ht, hu] at h
    simp only [ht, hu, Option.some.injEq, Prod.mk.injEq] at h
    obtain ⟨rfl, rfl⟩ := h
    have a := op_static o lo mid ws ws1 t h1 hb ht
    have b := ops_static os mid hi ws1 ws2 u h2 a.bound hu
    rw [stmtsNames_append]
    exact a.trans b

theorem else_static : ∀ (os : List Op) (lo hi : Nat) (ws ws' : WS) (e : CElse), wfOps lo hi os → elseOk os →
    Bound ws → astElse ws os = some (e, ws') → Static lo hi ws ws' e.names
  | [], lo, hi, ws, ws', e, hw, ho, hb, h => by simp [astElse] at h
  | o :: os, lo, hi, ws, ws', ee, hw, ho, hb, h => by
    by_cases hif : o.isIf = false
    · rw [astElse_block ws o os hif] at h
      simp only [Option.map_eq_some_iff, Prod.mk.injEq, Prod.exists] at h
      obtain ⟨b, ws2, hbk, rfl, rfl⟩ := h
      simp only [wfOps] at hw
      obtain ⟨mid, h1, h2⟩ := hw
      simp only [astOps] at hbk
      rcases ht : astOp ws o with - | ⟨t, ws1⟩
      · simp [ht] at hbk
      rcases hu : astOps ws1 os with - | ⟨u, ws3⟩
      · simp [ht, hu] at hbk
      simp only [ht, hu, Option.some.injEq, Prod.mk.injEq] at hbk
      obtain ⟨rfl, rfl⟩ := hbk
      have a := op_static o lo mid ws ws1 t h1 hb ht
      have b := ops_static os mid hi ws1 ws3 u h2 a.bound hu
      simp only [CElse.names, stmtsNames_append]
      exact a.trans b
    · match o, hif with
      | .matchIf c t e, _ =>
        simp only [elseOk] at ho
        subst ho
        simp only [wfOps, wfOp] at hw
        obtain ⟨mid', ⟨⟨mid, h1, h2⟩, h3⟩, h4⟩ := hw
        rw [astElse_if] at h
        rcases hc : astExpr ws c with - | ce
        · simp [hc] at h
        rcases ht : astOps ws t with - | ⟨tt, ws1⟩
        · simp [hc, ht] at h
        rcases he : astElse ws1 e with - | ⟨e2, ws2⟩
        · simp [hc, ht, he] at h
        simp only [hc, ht, he, Option.some.injEq, Prod.mk.injEq] at h
        obtain ⟨rfl, rfl⟩ := h
        have a := ops_static t lo mid ws ws1 tt h1 hb ht
        have b := else_static e mid mid' ws1 ws2 e2 h2 h3 a.bound he
        have c := a.trans (b.trans (Static.refl h4 b.bound))
        simpa [CElse.names] using c

theorem overload_static : ∀ (o : Overload) (lo hi : Nat) (ws ws' : WS) (l : Lambda),
    (match o with | .mk _ a b => lo ≤ a ∧ wfOps (a + 1) hi b) → Bound ws →
    astOverload ws o = some (l, ws') → Static lo hi ws ws' l.names
  | .mk type a body, lo, hi, ws, ws', l, hw, hb, h => by
    simp only [astOverload] at h
    rcases ht : astOps (ws.fresh a .arg).2 body with - | ⟨t, ws1⟩
    · simp [ht] at h
    simp only [ht, Option.some.injEq, Prod.mk.injEq] at h
    obtain ⟨rfl, rfl⟩ := h
    have x := Static.one (k := .arg) hw.1 (Nat.lt_succ_self a) hb
    have y := ops_static body (a + 1) hi _ ws1 t hw.2 x.bound ht
    simpa [Lambda.names] using x.trans y

theorem overloads_static : ∀ (os : List Overload) (lo hi : Nat) (ws ws' : WS) (ls : List Lambda),
    wfOverloads lo hi os → Bound ws →
    astOverloads ws os = some (ls, ws') → Static lo hi ws ws' (lambdaNames ls)
  | [], lo, hi, ws, ws', ls, hw, hb, h => by
    simp only [astOverloads, Option.some.injEq, Prod.mk.injEq] at h
    obtain ⟨rfl, rfl⟩ := h
    exact Static.refl hw hb
  | .mk type a body :: os, lo, hi, ws, ws', ls, hw, hb, h => by
    simp only [wfOverloads] at hw
    obtain ⟨mid, h1, h2, h3⟩ := hw
    simp only [astOverloads] at h
    rcases ht : astOverload ws (.mk type a body) with - | ⟨l, ws1⟩
    · simp [ht] at h
    rcases hu : astOverloads ws1 os with - | ⟨ls2, ws2⟩
    · simp [ht, hu] at h
    simp only [ht, hu, Option.some.injEq, Prod.mk.injEq] at h
    obtain ⟨rfl, rfl⟩ := h
    have x := overload_static (.mk type a body) lo mid ws ws1 l ⟨h1, h2⟩ hb ht
    have y := overloads_static os mid hi ws1 ws2 ls2 h3 x.bound hu
    simpa [lambdaNames] using x.trans y
end

end Nbdl.Dsl
