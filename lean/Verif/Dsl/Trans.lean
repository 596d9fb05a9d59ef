import Verif.Dsl.Cpp
/-!
# The writer writes the text of a program that does what the operations say

Proof devices: a meaning for the operations themselves, and the tree the writer has in mind.
-/
namespace Nbdl.Dsl

variable {σ V : Type}

/-! ### A meaning for the operations -/

/-- The object a value stands for. -/
def evalVal (w : World σ V) (env : Env Nat V) : Val → Option V
  | .id n => env n
  | .lit (.int i) => some (w.lit (.int i))
  | .lit (.str s) => (unquote s).map fun s => w.lit (.str s)
  | .cexpr t => some (w.cexpr t)
  | .const v => (evalVal w env v).map w.asConst
  | .member _ => none
  | .unit => none

/-- The objects of some values. -/
def evalVals (w : World σ V) (env : Env Nat V) : List Val → Option (List V)
  | [] => some []
  | v :: vs =>
    match evalVal w env v with
    | none => none
    | some x =>
      match evalVals w env vs with
      | none => none
      | some xs => some (x :: xs)

/-- The object of a key. -/
def evalKey (w : World σ V) (env : Env Nat V) : Option Val → Option (Option V)
  | none => some none
  | some .unit => some none
  | some v => (evalVal w env v).map some

/-- Binding the result of a visit. -/
def setRes (env : Env Nat V) (unit : Bool) (r : Nat) (v : V) : Env Nat V := if unit then env else env.set r v

/-- The type of an overload. -/
def Overload.type : Overload → Text
  | .mk t _ _ => t

mutual
/-- Running an operation. -/
def execOp (w : World σ V) (env : Env Nat V) (s : σ) : Op → Option (Env Nat V × σ)
  | .pure => some (env, s)
  | .const _ => none
  | .empty => none
  | .get r o (some (.member m)) =>
    match evalVal w env o with
    | none => none
    | some o => some (env.set r (w.member s o m), s)
  | .get r o k =>
    match evalVal w env o with
    | none => none
    | some o =>
      match evalKey w env k with
      | none => none
      | some k => some (env.set r (w.get s o k), s)
  | .visit r unit (.member m) args =>
    match evalVals w env args with
    | some (o :: xs) => some (setRes env unit r (w.memberCall s o m xs).2, (w.memberCall s o m xs).1)
    | _ => none
  | .visit r unit fn args =>
    match evalVal w env fn with
    | none => none
    | some f =>
      match evalVals w env args with
      | none => none
      | some xs => some (setRes env unit r (w.call s f xs).2, (w.call s f xs).1)
  | .compose r k lhs rhs =>
    match evalKey w env k with
    | none => none
    | some k =>
      match evalVal w env rhs with
      | none => none
      | some p =>
        match evalVal w env lhs with
        | none => none
        | some l => some (env.set r (w.compose s k p l).2, (w.compose s k p l).1)
  | .discard => some (env, s)
  | .noop v => (evalVal w env v).map fun _ => (env, s)
  | .matchOp st k os =>
    match evalVal w env st with
    | none => none
    | some st =>
      match evalKey w env k with
      | none => none
      | some k =>
        match overloadChoice w (w.matchStore s st k).2 (os.map Overload.type) with
        | none => none
        | some i =>
          (execPick w env (w.matchStore s st k).1 (w.matchStore s st k).2 i os).map fun s => (env, s)
  | .matchIf c t e =>
    match evalVal w env c with
    | none => none
    | some c =>
      if w.truth s c then (execOps w env s t).map fun r => (env, r.2)
      else (execOps w env s e).map fun r => (env, r.2)
  | .scope b => (execOps w env s b).map fun r => (env, r.2)

/-- Running a block. -/
def execOps (w : World σ V) (env : Env Nat V) (s : σ) : List Op → Option (Env Nat V × σ)
  | [] => some (env, s)
  | o :: os =>
    match execOp w env s o with
    | none => none
    | some r => execOps w r.1 r.2 os

/-- Running the body of the overload at position `i`. -/
def execPick (w : World σ V) (env : Env Nat V) (s : σ) (v : V) (i : Nat) : List Overload → Option σ
  | [] => none
  | .mk _ a body :: os => match i with
    | 0 => (execOps w (env.set a v) s body).map Prod.snd
    | i + 1 => execPick w env s v i os
end

/-! ### The tree -/

/-- The expression written for a value. -/
def astExpr (ws : WS) : Val → Option CExpr
  | .lit (.int i) => some (.int i)
  | .lit (.str s) => some (.str s)
  | .cexpr t => if t.isEmpty then none else some (.raw t)
  | .const v => (astExpr ws v).map CExpr.asConst
  | .id n => (ws.find n).map CExpr.name
  | .member _ => none
  | .unit => none

/-- The expressions written for some values. -/
def astExprs (ws : WS) : List Val → Option (List CExpr)
  | [] => some []
  | v :: vs =>
    match astExpr ws v with
    | none => none
    | some e =>
      match astExprs ws vs with
      | none => none
      | some es => some (e :: es)

/-- The expression written for a key. -/
def astKey (ws : WS) : Option Val → Option (Option CExpr)
  | none => some none
  | some .unit => some none
  | some v => (astExpr ws v).map some

/-- The name of the result of a visit, if it has one. -/
def resName (ws : WS) (unit : Bool) (r : Nat) : Option Name × WS :=
  if unit then (none, ws) else (some (ws.fresh r .result).1, (ws.fresh r .result).2)

mutual
/-- The statements written for an operation. -/
def astOp (ws : WS) : Op → Option (List CStmt × WS)
  | .pure => some ([], ws)
  | .const _ => none
  | .empty => none
  | .get r o (some (.member m)) =>
    match astExpr (ws.fresh r .get).2 o with
    | none => none
    | some o => some ([.member (ws.fresh r .get).1 o m], (ws.fresh r .get).2)
  | .get r o k =>
    match astExpr (ws.fresh r .get).2 o with
    | none => none
    | some o =>
      match astKey (ws.fresh r .get).2 k with
      | none => none
      | some k => some ([.get (ws.fresh r .get).1 o k], (ws.fresh r .get).2)
  | .visit r unit (.member m) args =>
    match astExprs (resName ws unit r).2 args with
    | some (o :: es) => some ([.mcall (resName ws unit r).1 o m es], (resName ws unit r).2)
    | _ => none
  | .visit r unit fn args =>
    match astExpr (resName ws unit r).2 fn with
    | none => none
    | some f =>
      match astExprs (resName ws unit r).2 args with
      | none => none
      | some es => some ([.call (resName ws unit r).1 f es], (resName ws unit r).2)
  | .compose r k lhs rhs =>
    match astKey (ws.fresh r .result).2 k with
    | none => none
    | some k =>
      match astExpr (ws.fresh r .result).2 rhs with
      | none => none
      | some p =>
        match astExpr (ws.fresh r .result).2 lhs with
        | none => none
        | some l => some ([.compose (ws.fresh r .result).1 k p l], (ws.fresh r .result).2)
  | .discard => some ([], ws)
  | .noop v => (astExpr ws v).map fun e => ([.void e], ws)
  | .matchOp st k [o] =>
    match astExpr ws st with
    | none => none
    | some st =>
      match astKey ws k with
      | none => none
      | some k =>
        match astOverload ws o with
        | none => none
        | some (l, ws) => some ([.matchOne st k l], ws)
  | .matchOp st k os =>
    match astExpr ws st with
    | none => none
    | some st =>
      match astKey ws k with
      | none => none
      | some k =>
        match astOverloads ws os with
        | none => none
        | some (ls, ws) => some ([.matchAll st k ls], ws)
  | .matchIf c t e =>
    match astExpr ws c with
    | none => none
    | some c =>
      match astOps ws t with
      | none => none
      | some (t, ws) =>
        match astElse ws e with
        | none => none
        | some (e, ws) => some ([.ite c t e], ws)
  | .scope b => astOps ws b

/-- What is written after `else`. -/
def astElse (ws : WS) : List Op → Option (CElse × WS)
  | [] => none
  | .matchIf c t e :: _ =>
    match astExpr ws c with
    | none => none
    | some c =>
      match astOps ws t with
      | none => none
      | some (t, ws) =>
        match astElse ws e with
        | none => none
        | some (e, ws) => some (.chain c t e, ws)
  | o :: os =>
    match astOp ws o with
    | none => none
    | some (t, ws) =>
      match astOps ws os with
      | none => none
      | some (u, ws) => some (.block (t ++ u), ws)

/-- The statements written for a block. -/
def astOps (ws : WS) : List Op → Option (List CStmt × WS)
  | [] => some ([], ws)
  | o :: os =>
    match astOp ws o with
    | none => none
    | some (t, ws) =>
      match astOps ws os with
      | none => none
      | some (u, ws) => some (t ++ u, ws)

/-- The lambda written for an overload. -/
def astOverload (ws : WS) : Overload → Option (Lambda × WS)
  | .mk type a body =>
    match astOps (ws.fresh a .arg).2 body with
    | none => none
    | some (b, ws') => some (.mk type (ws.fresh a .arg).1 b, ws')

/-- The lambdas written for the overloads. -/
def astOverloads (ws : WS) : List Overload → Option (List Lambda × WS)
  | [] => some ([], ws)
  | o :: os =>
    match astOverload ws o with
    | none => none
    | some (l, ws) =>
      match astOverloads ws os with
      | none => none
      | some (ls, ws) => some (l :: ls, ws)
end

/-- The function written. -/
def astFunc (f : Func) : Option CFunc :=
  match astOps (freshArgs ⟨0, []⟩ f.args).2 f.body with
  | none => none
  | some (b, _) => some ⟨f.name, (freshArgs ⟨0, []⟩ f.args).1, b⟩

/-! ### The text is that of the tree -/

@[simp] theorem interleave_separated (sep : Text) : ∀ ts, interleave sep ts = separated sep ts
  | [] => rfl
  | [t] => rfl
  | t :: u :: ts => by
    simp only [interleave, separated, interleave_separated sep (u :: ts), List.append_assoc]

@[simp] theorem declText_declare (x : Name) : declText x = declare x := by
  simp only [declText, declare, List.append_assoc]

@[simp] theorem lambdaHead_text (type : Text) (x : Name) :
    lambdaHead type x
      = tx "[&]([[maybe_unused]] " ++ (constraint type ++ (tx "auto&& " ++ (x.text ++ tx "){\n"))) := by
  cases type <;> simp [lambdaHead, constraint]

theorem stmtsText_append (a b : List CStmt) : stmtsText (a ++ b) = stmtsText a ++ stmtsText b := by
  induction a with
  | nil => simp [stmtsText]
  | cons x xs ih => simp [stmtsText, ih]

theorem writeExpr_ast (ws : WS) : ∀ v, writeExpr ws v = (astExpr ws v).map CExpr.text
  | .lit (.int _) => rfl
  | .lit (.str _) => rfl
  | .cexpr t => by
    simp only [writeExpr, astExpr]
    split <;> rfl
  | .const v => by
    simp only [writeExpr, astExpr, writeExpr_ast ws v, Option.map_map]
    congr 1
  | .id n => by simp [writeExpr, astExpr, Option.map_map, Function.comp_def, CExpr.text]
  | .member _ => rfl
  | .unit => rfl

theorem writeExprs_ast (ws : WS) : ∀ vs, writeExprs ws vs = (astExprs ws vs).map (List.map CExpr.text)
  | [] => rfl
  | v :: vs => by
    simp only [writeExprs, astExprs, writeExpr_ast, writeExprs_ast ws vs]
    rcases astExpr ws v with - | e <;> simp
    rcases astExprs ws vs with - | es <;> simp

theorem writeKey_ast (ws : WS) (k : Option Val) : writeKey ws k = (astKey ws k).map keyText := by
  rcases k with - | v
  · rfl
  · cases v <;> simp [writeKey, astKey, writeExpr_ast, Option.map_map, Function.comp_def, keyText]

theorem writeGet_ast (ws : WS) (r : Nat) (o : Val) (k : Option Val) :
    writeGet ws r o k = (astOp ws (.get r o k)).map fun p => (stmtsText p.1, p.2) := by
  by_cases hm : ∃ m, k = some (.member m)
  · obtain ⟨m, rfl⟩ := hm
    simp only [writeGet, astOp, writeExpr_ast]
    rcases astExpr (ws.fresh r .get).2 o with - | e <;> simp [stmtsText, CStmt.text]
  · have h1 : writeGet ws r o k = (do
        let s ← writeExpr (ws.fresh r .get).2 o
        let k ← writeKey (ws.fresh r .get).2 k
        some (declText (ws.fresh r .get).1 ++ tx "::nbdl::get(" ++ s ++ k ++ tx ");\n", (ws.fresh r .get).2)) := by
      rcases k with - | v
      · rfl
      · cases v <;> first | rfl | (exact absurd ⟨_, rfl⟩ hm)
    have h2 : astOp ws (.get r o k) = (match astExpr (ws.fresh r .get).2 o with
        | none => none
        | some o =>
          match astKey (ws.fresh r .get).2 k with
          | none => none
          | some k => some ([.get (ws.fresh r .get).1 o k], (ws.fresh r .get).2)) := by
      rcases k with - | v
      · simp only [astOp]
      · cases v <;> first | (exact absurd ⟨_, rfl⟩ hm) | simp only [astOp]
    rw [h1, h2, writeExpr_ast, writeKey_ast]
    rcases astExpr (ws.fresh r .get).2 o with - | e <;> simp
    rcases astKey (ws.fresh r .get).2 k with - | e <;> simp [stmtsText, CStmt.text]

theorem writeVisit_ast (ws : WS) (r : Nat) (unit : Bool) (fn : Val) (args : List Val) :
    writeVisit ws r unit fn args = (astOp ws (.visit r unit fn args)).map fun p => (stmtsText p.1, p.2) := by
  have hd : (if unit then (([] : Text), ws)
      else ((declText (ws.fresh r .result).1), (ws.fresh r .result).2))
      = (optDecl (resName ws unit r).1, (resName ws unit r).2) := by
    cases unit <;> simp [resName, optDecl]
  by_cases hm : ∃ m, fn = .member m
  · obtain ⟨m, rfl⟩ := hm
    simp only [writeVisit, astOp, hd]
    rcases args with - | ⟨a, rest⟩
    · simp [astExprs]
    · simp only [writeExpr_ast, writeExprs_ast, astExprs]
      rcases astExpr (resName ws unit r).2 a with - | e <;> simp
      rcases astExprs (resName ws unit r).2 rest with - | es <;> simp [stmtsText, CStmt.text, argsText]
  · have h1 : writeVisit ws r unit fn args = (do
        let f ← writeExpr (resName ws unit r).2 fn
        let ts ← writeExprs (resName ws unit r).2 args
        some (optDecl (resName ws unit r).1 ++ f ++ tx "(" ++ interleave (tx ",\n") ts ++ tx ");\n",
          (resName ws unit r).2)) := by
      simp only [writeVisit, hd]
      cases fn <;> first | rfl | (exact absurd ⟨_, rfl⟩ hm)
    have h2 : astOp ws (.visit r unit fn args) = (match astExpr (resName ws unit r).2 fn with
        | none => none
        | some f =>
          match astExprs (resName ws unit r).2 args with
          | none => none
          | some es => some ([.call (resName ws unit r).1 f es], (resName ws unit r).2)) := by
      cases fn <;> first | (exact absurd ⟨_, rfl⟩ hm) | simp only [astOp]
    rw [h1, h2, writeExpr_ast, writeExprs_ast]
    rcases astExpr (resName ws unit r).2 fn with - | e <;> simp
    rcases astExprs (resName ws unit r).2 args with - | e <;> simp [stmtsText, CStmt.text, argsText]

theorem writeCompose_ast (ws : WS) (r : Nat) (k : Option Val) (lhs rhs : Val) :
    writeCompose ws r k lhs rhs = (astOp ws (.compose r k lhs rhs)).map fun p => (stmtsText p.1, p.2) := by
  have hk : writeComposeKey (ws.fresh r .result).2 k
      = (astKey (ws.fresh r .result).2 k).map composeKeyText := by
    rcases k with - | v
    · rfl
    · cases v <;> simp [writeComposeKey, astKey, writeExpr_ast, Option.map_map, Function.comp_def,
        composeKeyText]
  simp only [writeCompose, astOp, writeExpr_ast]
  rw [hk]
  rcases astKey (ws.fresh r .result).2 k with - | k <;> simp
  rcases astExpr (ws.fresh r .result).2 rhs with - | e <;> simp
  rcases astExpr (ws.fresh r .result).2 lhs with - | e <;> simp [stmtsText, CStmt.text]

mutual
theorem writeOp_ast : ∀ (o : Op) (ws : WS), writeOp ws o = (astOp ws o).map fun p => (stmtsText p.1, p.2)
  | .pure, ws => by simp [writeOp, astOp, stmtsText]
  | .const _, ws => by simp [writeOp, astOp]
  | .empty, ws => by simp [writeOp, astOp]
  | .get r o k, ws => by rw [writeOp, writeGet_ast]
  | .visit r u f as, ws => by rw [writeOp, writeVisit_ast]
  | .compose r k l p, ws => by rw [writeOp, writeCompose_ast]
  | .discard, ws => by simp [writeOp, astOp, stmtsText]
  | .noop v, ws => by
    simp only [writeOp, astOp, writeExpr_ast]
    rcases astExpr ws v with - | e <;> simp [stmtsText, CStmt.text]
  | .matchOp st k [o], ws => by
    simp only [writeOp, astOp, writeExpr_ast, writeKey_ast, writeOverload_ast o ws]
    rcases astExpr ws st with - | e <;> simp
    rcases astKey ws k with - | k <;> simp
    rcases astOverload ws o with - | ⟨l, ws'⟩ <;> simp [stmtsText, CStmt.text]
  | .matchOp st k [], ws => by
    simp only [writeOp, astOp, writeExpr_ast, writeKey_ast, writeOverloads, astOverloads]
    rcases astExpr ws st with - | e <;> simp
    rcases astKey ws k with - | k <;> simp [stmtsText, CStmt.text, lambdaTexts]
  | .matchOp st k (o :: p :: os), ws => by
    simp only [writeOp, astOp, writeExpr_ast, writeKey_ast, writeOverloads_ast (o :: p :: os) ws]
    rcases astExpr ws st with - | e <;> simp
    rcases astKey ws k with - | k <;> simp
    rcases astOverloads ws (o :: p :: os) with - | ⟨l, ws'⟩ <;> simp [stmtsText, CStmt.text]
  | .matchIf c t e, ws => by
    simp only [writeOp, astOp, writeExpr_ast, writeOps_ast t ws]
    rcases astExpr ws c with - | c <;> simp
    rcases astOps ws t with - | ⟨t, ws'⟩ <;> simp
    rw [writeElse_ast e ws']
    rcases astElse ws' e with - | ⟨e, ws''⟩ <;> simp [stmtsText, CStmt.text]
  | .scope b, ws => by rw [writeOp, astOp, writeOps_ast b ws]

theorem writeElse_ast : ∀ (os : List Op) (ws : WS),
    writeElse ws os = (astElse ws os).map fun p => (p.1.text, p.2)
  | [], ws => by simp [writeElse, astElse]
  | .matchIf c t e :: _, ws => by
    simp only [writeElse, astElse, writeExpr_ast, writeOps_ast t ws]
    rcases astExpr ws c with - | c <;> simp
    rcases astOps ws t with - | ⟨t, ws'⟩ <;> simp
    rw [writeElse_ast e ws']
    rcases astElse ws' e with - | ⟨e, ws''⟩ <;> simp [CElse.text]
  | .pure :: os, ws => by
    simp only [writeElse, astElse]
    rw [writeOp_ast .pure ws]
    rcases astOp ws .pure with - | ⟨t, ws'⟩ <;> simp
    rw [writeOps_ast os ws']
    rcases astOps ws' os with - | ⟨u, ws''⟩ <;> simp [CElse.text, stmtsText_append]
  | .const v :: os, ws => by
    simp only [writeElse, astElse]
    rw [writeOp_ast (.const v) ws]
    rcases astOp ws (.const v) with - | ⟨t, ws'⟩ <;> simp
    rw [writeOps_ast os ws']
    rcases astOps ws' os with - | ⟨u, ws''⟩ <;> simp [CElse.text, stmtsText_append]
  | .empty :: os, ws => by
    simp only [writeElse, astElse]
    rw [writeOp_ast .empty ws]
    rcases astOp ws .empty with - | ⟨t, ws'⟩ <;> simp
    rw [writeOps_ast os ws']
    rcases astOps ws' os with - | ⟨u, ws''⟩ <;> simp [CElse.text, stmtsText_append]
  | .get a b c :: os, ws => by
    simp only [writeElse, astElse]
    rw [writeOp_ast (.get a b c) ws]
    rcases astOp ws (.get a b c) with - | ⟨t, ws'⟩ <;> simp
    rw [writeOps_ast os ws']
    rcases astOps ws' os with - | ⟨u, ws''⟩ <;> simp [CElse.text, stmtsText_append]
  | .visit a b c d :: os, ws => by
    simp only [writeElse, astElse]
    rw [writeOp_ast (.visit a b c d) ws]
    rcases astOp ws (.visit a b c d) with - | ⟨t, ws'⟩ <;> simp
    rw [writeOps_ast os ws']
    rcases astOps ws' os with - | ⟨u, ws''⟩ <;> simp [CElse.text, stmtsText_append]
  | .compose a b c d :: os, ws => by
    simp only [writeElse, astElse]
    rw [writeOp_ast (.compose a b c d) ws]
    rcases astOp ws (.compose a b c d) with - | ⟨t, ws'⟩ <;> simp
    rw [writeOps_ast os ws']
    rcases astOps ws' os with - | ⟨u, ws''⟩ <;> simp [CElse.text, stmtsText_append]
  | .discard :: os, ws => by
    simp only [writeElse, astElse]
    rw [writeOp_ast .discard ws]
    rcases astOp ws .discard with - | ⟨t, ws'⟩ <;> simp
    rw [writeOps_ast os ws']
    rcases astOps ws' os with - | ⟨u, ws''⟩ <;> simp [CElse.text, stmtsText_append]
  | .noop v :: os, ws => by
    simp only [writeElse, astElse]
    rw [writeOp_ast (.noop v) ws]
    rcases astOp ws (.noop v) with - | ⟨t, ws'⟩ <;> simp
    rw [writeOps_ast os ws']
    rcases astOps ws' os with - | ⟨u, ws''⟩ <;> simp [CElse.text, stmtsText_append]
  | .matchOp a b c :: os, ws => by
    simp only [writeElse, astElse]
    rw [writeOp_ast (.matchOp a b c) ws]
    rcases astOp ws (.matchOp a b c) with - | ⟨t, ws'⟩ <;> simp
    rw [writeOps_ast os ws']
    rcases astOps ws' os with - | ⟨u, ws''⟩ <;> simp [CElse.text, stmtsText_append]
  | .scope b :: os, ws => by
    simp only [writeElse, astElse]
    rw [writeOp_ast (.scope b) ws]
    rcases astOp ws (.scope b) with - | ⟨t, ws'⟩ <;> simp
    rw [writeOps_ast os ws']
    rcases astOps ws' os with - | ⟨u, ws''⟩ <;> simp [CElse.text, stmtsText_append]

theorem writeOps_ast : ∀ (os : List Op) (ws : WS),
    writeOps ws os = (astOps ws os).map fun p => (stmtsText p.1, p.2)
  | [], ws => by simp [writeOps, astOps, stmtsText]
  | o :: os, ws => by
    simp only [writeOps, astOps]
    rw [writeOp_ast o ws]
    rcases astOp ws o with - | ⟨t, ws'⟩ <;> simp
    rw [writeOps_ast os ws']
    rcases astOps ws' os with - | ⟨u, ws''⟩ <;> simp [stmtsText_append]

theorem writeOverload_ast : ∀ (o : Overload) (ws : WS),
    writeOverload ws o = (astOverload ws o).map fun p => (p.1.text, p.2)
  | .mk type a body, ws => by
    simp only [writeOverload, astOverload]
    rw [writeOps_ast body (ws.fresh a .arg).2]
    rcases astOps (ws.fresh a .arg).2 body with - | ⟨b, ws'⟩ <;> simp [Lambda.text]

theorem writeOverloads_ast : ∀ (os : List Overload) (ws : WS),
    writeOverloads ws os = (astOverloads ws os).map fun p => (lambdaTexts p.1, p.2)
  | [], ws => by simp [writeOverloads, astOverloads, lambdaTexts]
  | o :: os, ws => by
    simp only [writeOverloads, astOverloads]
    rw [writeOverload_ast o ws]
    rcases astOverload ws o with - | ⟨l, ws'⟩ <;> simp
    rw [writeOverloads_ast os ws']
    rcases astOverloads ws' os with - | ⟨ls, ws''⟩ <;> simp [lambdaTexts]
end

theorem writeFunc_ast (f : Func) : writeFunc f = (astFunc f).map CFunc.text := by
  simp only [writeFunc, astFunc]
  rcases h : freshArgs ⟨0, []⟩ f.args with ⟨xs, ws⟩
  simp only [writeOps_ast]
  rcases astOps ws f.body with - | ⟨b, ws'⟩ <;> simp [CFunc.text]

end Nbdl.Dsl
