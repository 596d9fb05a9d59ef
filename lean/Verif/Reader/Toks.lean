import Verif.Reader.Lex
/-!
# The tokens of trees
-/
namespace Nbdl.Reader
open Nbdl.Dsl

/-- What may be called or have members. -/
def PrimE (e : CExpr) : Prop := PlainE e ∧ ∀ i, e ≠ .int i

/-- An optional key. -/
def PlainK : Option CExpr → Prop
  | none => True
  | some e => PlainE e

mutual
/-- A statement whose text can be read. -/
def PlainC : CStmt → Prop
  | .get _ o k => PlainE o ∧ PlainK k
  | .member _ o m => PrimE o ∧ plainWord m
  | .call _ f as => PrimE f ∧ ∀ a ∈ as, PlainE a
  | .mcall _ o m as => PrimE o ∧ plainWord m ∧ ∀ a ∈ as, PlainE a
  | .compose _ _ _ _ => False
  | .void e => PlainE e
  | .matchOne s k l => PlainE s ∧ PlainK k ∧ PlainL l
  | .matchAll s k ls => PlainE s ∧ PlainK k ∧ ls ≠ [] ∧ PlainLs ls
  | .ite c t e => PlainE c ∧ PlainCs t ∧ PlainEl e

/-- What follows `else`. -/
def PlainEl : CElse → Prop
  | .chain c t e => PlainE c ∧ PlainCs t ∧ PlainEl e
  | .block b => PlainCs b

/-- A lambda. -/
def PlainL : Lambda → Prop
  | .mk type _ body => plainType type ∧ PlainCs body

/-- Lambdas. -/
def PlainLs : List Lambda → Prop
  | [] => True
  | l :: ls => PlainL l ∧ PlainLs ls

/-- Statements. -/
def PlainCs : List CStmt → Prop
  | [] => True
  | s :: ss => PlainC s ∧ PlainCs ss
end

/-- The tokens of a key. -/
def keyToks : Option CExpr → List Tok
  | none => []
  | some e => .op (tx ",") :: exprToks e

/-- The tokens of arguments with the closing parenthesis. -/
def argsToks : List CExpr → List Tok
  | [] => [.op (tx ")")]
  | [e] => exprToks e ++ [.op (tx ")")]
  | e :: es => exprToks e ++ (.op (tx ",") :: argsToks es)

/-- The tokens of a declaration. -/
def declToks : Option Name → List Tok
  | none => []
  | some x => autoToks ++ [.word x.text, .op (tx "=")]

/-- The tokens of a constraint. -/
def constraintToks (type : Text) : List Tok :=
  if type = [] then [] else sameAsToks ++ ((lex type).getD [] ++ [.op (tx ">")])

/-- The tokens of a condition. -/
def condToks (c : CExpr) : List Tok := .op (tx "(") :: (exprToks c ++ [.op (tx ")"), .op (tx "{")])

mutual
/-- The tokens of a statement. -/
def stmtToks : CStmt → List Tok
  | .get x o k => declToks (some x) ++ (getToks ++ (exprToks o ++ (keyToks k ++ [.op (tx ")"), .op (tx ";")])))
  | .member x o m => declToks (some x) ++ (exprToks o ++ [.op (tx "."), .word m, .op (tx ";")])
  | .call x f as => declToks x ++ (exprToks f ++ (.op (tx "(") :: (argsToks as ++ [.op (tx ";")])))
  | .mcall x o m as =>
    declToks x ++ (exprToks o ++ (.op (tx ".") :: .word m :: .op (tx "(") :: (argsToks as ++ [.op (tx ";")])))
  | .compose _ _ _ _ => []
  | .void e => [.op (tx "("), .word (tx "void"), .op (tx ")")] ++ (exprToks e ++ [.op (tx ";")])
  | .matchOne s k l =>
    matchToks ++ (exprToks s ++ (keyToks k ++ (.op (tx ",") :: (lambdaToks' l ++ [.op (tx ")"), .op (tx ";")]))))
  | .matchAll s k ls =>
    matchToks ++ (exprToks s ++ (keyToks k ++ (.op (tx ",") :: (overloadToks ++
      (lambdasToks ls ++ [.op (tx ")"), .op (tx ";")])))))
  | .ite c t e => .word (tx "if") :: (condToks c ++ (stmtsToks t ++ (.word (tx "else") :: elseToks e)))

/-- The tokens of what follows `else`. -/
def elseToks : CElse → List Tok
  | .chain c t e => .word (tx "if") :: (condToks c ++ (stmtsToks t ++ (.word (tx "else") :: elseToks e)))
  | .block b => .op (tx "{") :: stmtsToks b

/-- The tokens of a lambda. -/
def lambdaToks' : Lambda → List Tok
  | .mk type x body =>
    lambdaToks ++ (constraintToks type ++ (autoToks ++ (.word x.text :: .op (tx ")") :: .op (tx "{") :: stmtsToks body)))

/-- The tokens of lambdas with the closing parenthesis. -/
def lambdasToks : List Lambda → List Tok
  | [] => [.op (tx ")")]
  | [l] => lambdaToks' l ++ [.op (tx ")")]
  | l :: ls => lambdaToks' l ++ (.op (tx ",") :: lambdasToks ls)

/-- The tokens of statements with the closing brace. -/
def stmtsToks : List CStmt → List Tok
  | [] => [.op (tx "}")]
  | s :: ss => stmtToks s ++ stmtsToks ss
end

/-! ### They are the tokens of the text -/

theorem whole_piece {p t : Text} {ps ts : List Tok} (hp : run .idle p = some (ps, .idle)) (h : Whole t ts) :
    Whole (p ++ t) (ps ++ ts) := Whole.append hp h

theorem whole_expr {e : CExpr} {t : Text} {ts : List Tok} (he : PlainE e) (hs : startsStop t = true)
    (h : Whole t ts) : Whole (e.text ++ t) (exprToks e ++ ts) := Whole.after (lex_expr e he) hs h

theorem whole_word {w : Text} {t : Text} {ts : List Tok} (he : identifier w = true) (hs : startsStop t = true)
    (h : Whole t ts) : Whole (w ++ t) (.word w :: ts) := Whole.after (lex_identifier he) hs h

/-- A member name after a dot. -/
theorem whole_member {e : CExpr} {m t : Text} {ts : List Tok} (he : PrimE e) (hm : identifier m = true)
    (hs : startsStop t = true) (h : Whole t ts) :
    Whole (e.text ++ (tx "." ++ (m ++ t))) (exprToks e ++ (.op (tx ".") :: .word m :: ts)) := by
  have hmt : run .dot (m ++ t) = some (.op (tx ".") :: .word m :: ts, .idle) := by
    have hw := whole_word hm hs h
    unfold Whole at hw
    cases m with
    | nil => simp [identifier] at hm
    | cons c m =>
      simp only [identifier, Bool.and_eq_true] at hm
      have hd : c.isDigit = false := by
        cases hd : c.isDigit with
        | false => rfl
        | true =>
          have := wordStart_digit hd
          rw [show wordStart c = true from hm.1] at this
          cases this
      simp only [List.cons_append, run, step, hd] at hw ⊢
      simp only [Bool.false_eq_true, if_false, after]
      cases hc : stepIdle c with
      | none => simp [hc] at hw
      | some p =>
        obtain ⟨us, s⟩ := p
        simp only [hc, Option.map_some] at hw ⊢
        cases hr : run s (m ++ t) with
        | none => simp [hr] at hw
        | some q =>
          simp only [hr, Option.some.injEq, Prod.mk.injEq] at hw ⊢
          exact ⟨by simp [hw.1], hw.2⟩
  have hdot : ∀ (s : Lex) (f : List Tok), flush s = some f → (∀ w, s ≠ .num w) → s ≠ .dot →
      run s (tx "." ++ (m ++ t)) = some (f ++ (.op (tx ".") :: .word m :: ts), .idle) := by
    intro s f hf hn hd
    have e : ∀ r, (tx "." ++ r : Text) = '.' :: r := fun _ => rfl
    rw [e]
    have hi : stepIdle '.' = some ([], .dot) := rfl
    cases s with
    | idle =>
      simp only [flush, Option.some.injEq] at hf; subst hf
      simp only [run, step, hi, hmt]
      try rfl
    | word w =>
      simp only [flush, Option.some.injEq] at hf; subst hf
      have : step (.word w) '.' = some ([.word w], .dot) := rfl
      simp only [run, this, hmt]
    | num w => exact absurd rfl (hn w)
    | str w => simp [flush] at hf
    | esc w => simp [flush] at hf
    | colon =>
      simp only [flush, Option.some.injEq] at hf; subst hf
      have : step .colon '.' = some ([.op (tx ":")], .dot) := rfl
      simp only [run, this, hmt]
    | amp =>
      simp only [flush, Option.some.injEq] at hf; subst hf
      have : step .amp '.' = some ([.op (tx "&")], .dot) := rfl
      simp only [run, this, hmt]
    | dot => exact absurd rfl hd
  have hend : ∃ out st f, run .idle e.text = some (out, st) ∧ flush st = some f ∧ out ++ f = exprToks e ∧
      (∀ w, st ≠ .num w) ∧ st ≠ .dot := by
    obtain ⟨hp, hi⟩ := he
    cases e with
    | name x =>
      exact ⟨[], .word x.text, [.word x.text], run_identifier x.text_identifier, rfl, rfl, by simp, by simp⟩
    | int i => exact absurd rfl (hi i)
    | str s => exact ⟨[.str s], .idle, [], whole_str hp, rfl, rfl, by simp, by simp⟩
    | asConst e => exact hp.elim
    | raw r =>
      obtain ⟨lead, w, ws, hw, hws, hr, -⟩ := hp
      rw [exprToks_raw hw hws hr]
      obtain ⟨out, v, h1, h2⟩ : ∃ out v, run .idle r = some (out, .word v) ∧ out ++ [.word v] = symToks lead w ws := by
        have q : ∀ (ws : List Text) (w : Text), (∀ v ∈ ws, identifier v = true) →
            ∃ out v, run (.word w) (ws.flatMap fun v => tx "::" ++ v) = some (out, .word v) ∧
              out ++ [.word v] = .word w :: ws.flatMap fun v => [.op (tx "::"), .word v] := by
          intro ws
          induction ws with
          | nil => intro w _; exact ⟨[], w, rfl, rfl⟩
          | cons v ws ih =>
            intro w h
            obtain ⟨out, u, h1, h2⟩ := ih v fun u hu => h u (by simp [hu])
            refine ⟨.word w :: .op (tx "::") :: out, u, ?_, by simp [h2]⟩
            rw [List.flatMap_cons, List.append_assoc, run_append]
            have : run (.word w) (tx "::") = some ([.word w, .op (tx "::")], .idle) := rfl
            simp only [this, run_append, run_identifier (h v (by simp)), h1]
            rfl
        obtain ⟨out, v, h1, h2⟩ := q ws w fun v hv => (hws v hv).1
        have key : run .idle (w ++ ws.flatMap fun v => tx "::" ++ v) = some (out, .word v) := by
          rw [run_append, run_identifier hw.1]
          simp [h1]
        rw [hr, separated_flatMap]
        cases lead with
        | false => exact ⟨out, v, by simpa using key, by simp [h2, symToks]⟩
        | true =>
          have : run .idle (tx "::") = some ([.op (tx "::")], .idle) := rfl
          refine ⟨.op (tx "::") :: out, v, ?_, by simp [h2, symToks]⟩
          rw [if_pos rfl, run_append, this]
          simp only [key]
          rfl
      exact ⟨out, .word v, [.word v], h1, rfl, h2, by simp, by simp⟩
  obtain ⟨out, st, f, h1, h2, h3, h4, h5⟩ := hend
  unfold Whole
  rw [run_append, h1]
  simp only [hdot st f h2 h4 h5, ← h3]
  simp

theorem whole_key {k : Option CExpr} {t : Text} {ts : List Tok} (hk : PlainK k) (hs : startsStop t = true)
    (h : Whole t ts) : startsStop (keyText k ++ t) = true ∧ Whole (keyText k ++ t) (keyToks k ++ ts) := by
  cases k with
  | none => exact ⟨hs, h⟩
  | some e =>
    refine ⟨rfl, ?_⟩
    have : keyText (some e) ++ t = tx ", " ++ (e.text ++ t) := by simp [keyText]
    rw [this]
    exact whole_piece (p := tx ", ") (ps := [.op (tx ",")]) rfl (whole_expr hk hs h)

theorem whole_args (es : List CExpr) (h : ∀ e ∈ es, PlainE e) :
    Whole (separated (tx ",\n") (es.map CExpr.text) ++ tx ");\n") (argsToks es ++ [.op (tx ";")]) := by
  induction es with
  | nil => rfl
  | cons e es ih =>
    cases es with
    | nil =>
      have := whole_expr (h e (by simp)) (t := tx ");\n") (ts := [.op (tx ")"), .op (tx ";")]) rfl rfl
      simpa [separated, argsToks] using this
    | cons e' es =>
      have ih := ih fun x hx => h x (by simp [hx])
      have := whole_expr (h e (by simp)) (t := tx ",\n" ++ (separated (tx ",\n") ((e' :: es).map CExpr.text) ++ tx ");\n"))
        rfl (whole_piece (ps := [.op (tx ",")]) rfl ih)
      simpa [separated, argsToks] using this

theorem whole_argsText (es : List CExpr) (h : ∀ e ∈ es, PlainE e) :
    startsStop (argsText es) = true ∧ Whole (argsText es) (.op (tx "(") :: (argsToks es ++ [.op (tx ";")])) := by
  rw [argsText, List.append_assoc]
  exact ⟨rfl, whole_piece (p := tx "(") (ps := [.op (tx "(")]) rfl (whole_args es h)⟩

theorem whole_declare (x : Name) {t : Text} {ts : List Tok} (h : Whole t ts) :
    Whole (declare x ++ t) (declToks (some x) ++ ts) := by
  have := whole_piece (p := tx "auto&& ") (ps := autoToks) rfl
    (whole_word x.text_identifier (t := tx " = " ++ t) rfl (whole_piece (ps := [.op (tx "=")]) rfl h))
  simpa [declare, declToks] using this

theorem whole_optDecl (x : Option Name) {t : Text} {ts : List Tok} (h : Whole t ts) :
    Whole (optDecl x ++ t) (declToks x ++ ts) := by
  cases x with
  | none => exact h
  | some x => exact whole_declare x h

theorem whole_constraint {type : Text} (ht : plainType type) {t : Text} {ts : List Tok} (h : Whole t ts) :
    Whole (constraint type ++ t) (constraintToks type ++ ts) := by
  cases type with
  | nil => exact h
  | cons c type =>
    rcases ht with h0 | ⟨us, hl, -, -⟩
    · simp at h0
    · have := whole_piece (p := tx "::nbdl::SameAs<") (ps := sameAsToks) rfl
        (Whole.after hl (b := tx "> " ++ t) rfl (whole_piece (ps := [.op (tx ">")]) rfl h))
      have e : constraint (c :: type) = tx "::nbdl::SameAs<" ++ ((c :: type) ++ tx "> ") := rfl
      rw [e]
      simpa [constraintToks, hl] using this

theorem whole_cond {c : CExpr} (hc : PlainE c) {t : Text} {ts : List Tok} (h : Whole t ts) :
    Whole (tx "if (" ++ (c.text ++ (tx ") {\n" ++ t))) (.word (tx "if") :: (condToks c ++ ts)) := by
  have := whole_piece (p := tx "if (") (ps := [.word (tx "if"), .op (tx "(")]) rfl
    (whole_expr hc (t := tx ") {\n" ++ t) rfl (whole_piece (ps := [.op (tx ")"), .op (tx "{")]) rfl h))
  simpa [condToks] using this

mutual
theorem whole_stmt : ∀ (s : CStmt), PlainC s → Whole s.text (stmtToks s)
  | .get x o k, h => by
    obtain ⟨ho, hk⟩ := h
    obtain ⟨k1, k2⟩ := whole_key hk (t := tx ");\n") (ts := [.op (tx ")"), .op (tx ";")]) rfl rfl
    have := whole_declare x (whole_piece (p := tx "::nbdl::get(") (ps := getToks) rfl (whole_expr ho k1 k2))
    simpa only [CStmt.text, stmtToks, List.append_assoc] using this
  | .member x o m, h => by
    have := whole_declare x (whole_member h.1 h.2.1 (t := tx ";\n") (ts := [.op (tx ";")]) rfl rfl)
    simpa only [CStmt.text, stmtToks, List.append_assoc] using this
  | .call x f as, h => by
    obtain ⟨a1, a2⟩ := whole_argsText as h.2
    have := whole_optDecl x (whole_expr h.1.1 a1 a2)
    simpa only [CStmt.text, stmtToks, List.append_assoc] using this
  | .mcall x o m as, h => by
    obtain ⟨a1, a2⟩ := whole_argsText as h.2.2
    have := whole_optDecl x (whole_member h.1 h.2.1.1 a1 a2)
    simpa only [CStmt.text, stmtToks, List.append_assoc] using this
  | .compose _ _ _ _, h => h.elim
  | .void e, h => by
    have := whole_piece (p := tx "(void)") (ps := [.op (tx "("), .word (tx "void"), .op (tx ")")]) rfl
      (whole_expr h (t := tx ";\n") (ts := [.op (tx ";")]) rfl rfl)
    simpa only [CStmt.text, stmtToks, List.append_assoc] using this
  | .matchOne s k l, h => by
    obtain ⟨hs, hk, hl⟩ := h
    have h1 := whole_piece (p := tx ", ") (ps := [.op (tx ",")]) rfl
      ((whole_lambda l hl).append (b := tx ");\n") (bs := [.op (tx ")"), .op (tx ";")]) rfl)
    obtain ⟨k1, k2⟩ := whole_key hk rfl h1
    have := whole_piece (p := tx "::nbdl::match(") (ps := matchToks) rfl (whole_expr hs k1 k2)
    simpa only [CStmt.text, stmtToks, List.append_assoc, List.cons_append, List.nil_append] using this
  | .matchAll s k ls, h => by
    obtain ⟨hs, hk, -, hl⟩ := h
    have h1 := whole_piece (p := tx ", boost::hana::overload(") (ps := .op (tx ",") :: overloadToks) rfl
      (whole_lambdas ls hl)
    obtain ⟨k1, k2⟩ := whole_key hk rfl h1
    have := whole_piece (p := tx "::nbdl::match(") (ps := matchToks) rfl (whole_expr hs k1 k2)
    simpa only [CStmt.text, stmtToks, List.append_assoc, List.cons_append, List.nil_append] using this
  | .ite c t e, h => by
    obtain ⟨hc, ht, he⟩ := h
    have := whole_cond hc (whole_stmts t ht (whole_piece (p := tx " else ") (ps := [.word (tx "else")]) rfl (whole_else e he)))
    have e' : tx "}" ++ (tx " else " ++ e.text) = tx "} else " ++ e.text := rfl
    simpa only [CStmt.text, stmtToks, List.append_assoc, List.cons_append, List.nil_append, e'] using this

theorem whole_else : ∀ (e : CElse), PlainEl e → Whole e.text (elseToks e)
  | .chain c t e, h => by
    obtain ⟨hc, ht, he⟩ := h
    have := whole_cond hc (whole_stmts t ht (whole_piece (p := tx " else ") (ps := [.word (tx "else")]) rfl (whole_else e he)))
    have e' : tx "}" ++ (tx " else " ++ e.text) = tx "} else " ++ e.text := rfl
    simpa only [CElse.text, elseToks, List.append_assoc, List.cons_append, List.nil_append, e'] using this
  | .block b, h => by
    have := whole_piece (p := tx "{\n") (ps := [.op (tx "{")]) rfl (whole_stmts b h (t := tx "\n") (ts := []) rfl)
    have e' : tx "}" ++ tx "\n" = tx "}\n" := rfl
    simpa only [CElse.text, elseToks, List.append_assoc, List.cons_append, List.nil_append, List.append_nil, e'] using this

theorem whole_lambda : ∀ (l : Lambda), PlainL l → Whole l.text (lambdaToks' l)
  | .mk type x body, h => by
    have h1 := whole_stmts body h.2 (t := []) (ts := []) rfl
    have h2 := whole_word x.text_identifier (t := tx "){\n" ++ (stmtsText body ++ tx "}")) rfl
      (whole_piece (ps := [.op (tx ")"), .op (tx "{")]) rfl h1)
    have := whole_piece (p := tx "[&]([[maybe_unused]] ") (ps := lambdaToks) rfl
      (whole_constraint h.1 (whole_piece (p := tx "auto&& ") (ps := autoToks) rfl h2))
    simpa only [Lambda.text, lambdaToks', List.append_assoc, List.cons_append, List.nil_append, List.append_nil] using this

theorem whole_lambdas : ∀ (ls : List Lambda), PlainLs ls →
    Whole (separated (tx ",\n") (lambdaTexts ls) ++ tx "));\n") (lambdasToks ls ++ [.op (tx ")"), .op (tx ";")])
  | [], _ => rfl
  | [l], h => by
    have := (whole_lambda l h.1).append (b := tx "));\n") (bs := [.op (tx ")"), .op (tx ")"), .op (tx ";")]) rfl
    simpa [separated, lambdaTexts, lambdasToks] using this
  | l :: l' :: ls, h => by
    have := (whole_lambda l h.1).append (whole_piece (p := tx ",\n") (ps := [.op (tx ",")]) rfl (whole_lambdas (l' :: ls) h.2))
    simpa [separated, lambdaTexts, lambdasToks] using this

theorem whole_stmts : ∀ (ss : List CStmt), PlainCs ss → ∀ {t : Text} {ts : List Tok}, Whole t ts →
    Whole (stmtsText ss ++ (tx "}" ++ t)) (stmtsToks ss ++ ts)
  | [], _, t, ts, h => whole_piece (p := tx "}") (ps := [.op (tx "}")]) rfl h
  | s :: ss, hp, t, ts, h => by
    have := (whole_stmt s hp.1).append (whole_stmts ss hp.2 h)
    simpa only [stmtsText, stmtsToks, List.append_assoc] using this
end

end Nbdl.Reader
