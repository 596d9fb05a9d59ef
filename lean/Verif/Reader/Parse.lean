import Verif.Reader.Toks
/-!
# Reading back the tokens of a tree
-/
namespace Nbdl.Reader
open Nbdl.Dsl

/-! ### Expressions -/

/-- What follows does not continue a qualified name. -/
def nq (ts : List Tok) : Prop := ts.head? ≠ some (.op (tx "::"))

theorem nameOf_text (x : Name) : nameOf x.text = some x := by
  rcases x with ⟨k, n⟩
  have h : ∀ k' : Kind, (Name.text ⟨k, n⟩).drop k'.text.length = (Name.text ⟨k, n⟩).drop k'.text.length := fun _ => rfl
  have hk : ∀ k' : Kind, k' ≠ k → ∀ m, Name.text ⟨k', m⟩ ≠ Name.text ⟨k, n⟩ := by
    intro k' hk m he
    have := Name.text_inj he
    simp only [Name.mk.injEq] at this
    exact hk this.1
  have hs : Nat.ofDigitChars 10 ((Name.text ⟨k, n⟩).drop k.text.length) 0 = n := by
    simp only [Name.text, List.drop_left, toString_toList]
    exact Nat.ofDigitChars_ten_toDigits
  unfold nameOf
  cases k with
  | arg => simp only [List.findSome?_cons, hs, if_true]
  | get =>
    simp only [List.findSome?_cons, hs, if_true, hk .arg (by decide), if_false]
  | result =>
    simp only [List.findSome?_cons, hs, if_true, hk .arg (by decide), hk .get (by decide), if_false]

theorem keywords_no_name : ∀ w ∈ keywords, nameOf w = none := by decide +kernel

theorem name_no_keyword (x : Name) : x.text ∉ keywords := by
  intro h
  have := keywords_no_name _ h
  rw [nameOf_text] at this
  cases this

theorem natOf_tok (n : Nat) : natOf (toString n).toList = some n := by
  have : Nat.ofDigitChars 10 (toString n).toList 0 = n := by
    rw [toString_toList]; exact Nat.ofDigitChars_ten_toDigits
  simp only [natOf, this, if_true]

theorem qualified_stop (acc : Text) {ts : List Tok} (h : nq ts) : qualified acc ts = some (acc, ts) := by
  match ts with
  | [] => simp [qualified]
  | [t] => simp [qualified]
  | .word _ :: _ :: _ => simp [qualified]
  | .num _ :: _ :: _ => simp [qualified]
  | .str _ :: _ :: _ => simp [qualified]
  | .op _ :: .num _ :: _ => simp [qualified]
  | .op _ :: .str _ :: _ => simp [qualified]
  | .op _ :: .op _ :: _ => simp [qualified]
  | .op t :: .word w :: r =>
    have : t ≠ tx "::" := fun e => h (by rw [e]; rfl)
    simp [qualified, this]

theorem qualified_all {rest : List Tok} (h : nq rest) : ∀ (ws : List Text) (acc : Text), (∀ v ∈ ws, plainWord v) →
    qualified acc ((ws.flatMap fun v => [.op (tx "::"), .word v]) ++ rest) =
      some (acc ++ ws.flatMap fun v => tx "::" ++ v, rest)
  | [], acc, _ => by simpa using qualified_stop acc h
  | v :: ws, acc, hv => by
    have ih := qualified_all h ws (acc ++ (tx "::" ++ v)) fun u hu => hv u (by simp [hu])
    have hk := (hv v (by simp)).2
    simp only [List.flatMap_cons, List.cons_append, List.nil_append, qualified, if_true, hk, if_false, ih]
    simp

theorem read_primary {e : CExpr} (he : PrimE e) {rest : List Tok} (h : nq rest) :
    readPrimary (exprToks e ++ rest) = some (e, rest) := by
  obtain ⟨hp, hi⟩ := he
  cases e with
  | name x =>
    simp [exprToks, readPrimary, name_no_keyword, qualified_stop _ h, nameOf_text]
  | int i => exact absurd rfl (hi i)
  | str s => rfl
  | asConst e => exact hp.elim
  | raw t =>
    obtain ⟨lead, w, ws, hw, hws, ht, hn, -, -⟩ := hp
    rw [exprToks_raw hw hws ht]
    have hq := qualified_all h ws
    cases lead with
    | true =>
      have ht' : t = tx "::" ++ w ++ ws.flatMap (fun v => tx "::" ++ v) := by
        rw [ht, separated_flatMap]; simp
      simp [symToks, readPrimary, hw.2, hq _ hws, ht']
    | false =>
      have ht' : t = w ++ ws.flatMap (fun v => tx "::" ++ v) := by
        rw [ht, separated_flatMap]; simp
      have e : symToks false w ws ++ rest = .word w :: ((ws.flatMap fun v => [.op (tx "::"), .word v]) ++ rest) := rfl
      rw [e]
      simp only [readPrimary, hw.2, if_false, hq _ hws, ← ht']
      by_cases hws' : ws = []
      · subst hws'
        have : t = w := by simpa using ht'
        rw [this, if_pos rfl, hn rfl rfl]
      · have : t ≠ w := by
          intro hh
          cases ws with
          | nil => exact hws' rfl
          | cons v ws =>
            rw [ht'] at hh
            have := congrArg List.length hh
            simp [tx] at this
        rw [if_neg this]

theorem symToks_cases (lead : Bool) (w : Text) (ws : List Text) :
    (∃ r, symToks lead w ws = .op (tx "::") :: .word w :: r) ∨ ∃ r, symToks lead w ws = .word w :: r := by
  cases lead with
  | true => exact .inl ⟨_, rfl⟩
  | false => exact .inr ⟨_, rfl⟩

theorem read_expr {e : CExpr} (he : PlainE e) {rest : List Tok} (h : nq rest) :
    readExpr (exprToks e ++ rest) = some (e, rest) := by
  by_cases hi : ∃ i, e = .int i
  · obtain ⟨i, rfl⟩ := hi
    cases i with
    | ofNat n =>
      simp only [exprToks, natTok, readExpr, List.cons_append, List.nil_append, natOf_tok]
      rfl
    | negSucc n =>
      simp only [exprToks, natTok, readExpr, List.cons_append, List.nil_append, if_true, natOf_tok, Option.map_some]
      rfl
  · have hp : PrimE e := ⟨he, fun i hi' => hi ⟨i, hi'⟩⟩
    rw [← read_primary hp h]
    cases e with
    | name x => simp [exprToks, readExpr]
    | int i => exact absurd ⟨i, rfl⟩ hi
    | str s => simp [exprToks, readExpr]
    | asConst e => exact he.elim
    | raw t =>
      obtain ⟨lead, w, ws, hw, hws, ht, -⟩ := he
      rw [exprToks_raw hw hws ht]
      rcases symToks_cases lead w ws with ⟨r, hr⟩ | ⟨r, hr⟩ <;> rw [hr] <;> simp [readExpr]

/-! ### Fixed tokens -/

theorem expectAll_append : ∀ (a r : List Tok), expectAll a (a ++ r) = some r
  | [], _ => rfl
  | t :: a, r => by simp [expectAll, expectAll_append a r]

theorem expectAll_some : ∀ {a b r : List Tok}, expectAll a b = some r → b = a ++ r
  | [], b, r, h => by simpa [expectAll] using h
  | t :: a, [], r, h => by simp [expectAll] at h
  | t :: a, u :: b, r, h => by
    simp only [expectAll] at h
    split at h
    · next e => rw [e, expectAll_some h]; rfl
    · cases h

theorem expect_some {t : String} {b r : List Tok} (h : expect t b = some r) : b = .op (tx t) :: r := by
  cases b with
  | nil => simp [expect] at h
  | cons u b =>
    cases u <;> simp only [expect] at h <;> try cases h
    split at h
    · next e => simp only [Option.some.injEq] at h; rw [e, h]
    · cases h

theorem expectWord_some {t : String} {b r : List Tok} (h : expectWord t b = some r) : b = .word (tx t) :: r := by
  cases b with
  | nil => simp [expectWord] at h
  | cons u b =>
    cases u <;> simp only [expectWord] at h <;> try cases h
    split at h
    · next e => simp only [Option.some.injEq] at h; rw [e, h]
    · cases h

theorem expect_op (t : String) (r : List Tok) : expect t (.op (tx t) :: r) = some r := by simp [expect]

theorem readExpr_op {t : Text} (h1 : t ≠ tx "::") (h2 : t ≠ tx "-") (r : List Tok) : readExpr (.op t :: r) = none := by
  match r with
  | [] => simp [readExpr, readPrimary]
  | .word w :: r => simp [readExpr, readPrimary, h1]
  | .num w :: r => simp [readExpr, h2]
  | .str w :: r => simp [readExpr, readPrimary]
  | .op w :: r => simp [readExpr, readPrimary]

theorem readExpr_keyword {w : Text} (h : w ∈ keywords) (r : List Tok) : readExpr (.word w :: r) = none := by
  simp [readExpr, readPrimary, h]

section
variable {e : CExpr} (he : PlainE e) {rest : List Tok} (h : nq rest)
include he h

theorem expr_no_op {t : String} (h1 : tx t ≠ tx "::") (h2 : tx t ≠ tx "-") : expect t (exprToks e ++ rest) = none := by
  cases hx : expect t (exprToks e ++ rest) with
  | none => rfl
  | some r =>
    have := read_expr he h
    rw [expect_some hx, readExpr_op h1 h2] at this
    cases this

theorem expr_no_keyword {t : String} (hk : tx t ∈ keywords) : expectWord t (exprToks e ++ rest) = none := by
  cases hx : expectWord t (exprToks e ++ rest) with
  | none => rfl
  | some r =>
    have := read_expr he h
    rw [expectWord_some hx, readExpr_keyword hk] at this
    cases this

theorem expr_no_auto : expectAll autoToks (exprToks e ++ rest) = none := by
  cases hx : expectAll autoToks (exprToks e ++ rest) with
  | none => rfl
  | some r =>
    have := read_expr he h
    rw [expectAll_some hx] at this
    simp only [autoToks, List.cons_append] at this
    rw [readExpr_keyword (by decide)] at this
    cases this

theorem expr_no_void :
    expectAll [.op (tx "("), .word (tx "void"), .op (tx ")")] (exprToks e ++ rest) = none := by
  cases hx : expectAll [.op (tx "("), .word (tx "void"), .op (tx ")")] (exprToks e ++ rest) with
  | none => rfl
  | some r =>
    have := read_expr he h
    rw [expectAll_some hx] at this
    simp only [List.cons_append] at this
    rw [readExpr_op (by decide) (by decide)] at this
    cases this

theorem expr_no_match : expectAll matchToks (exprToks e ++ rest) = none := by
  cases hx : expectAll matchToks (exprToks e ++ rest) with
  | none => rfl
  | some r =>
    have := read_expr he h
    rw [expectAll_some hx] at this
    have hm : readExpr (matchToks ++ r) = some (.raw (tx "::nbdl::match"), .op (tx "(") :: r) := by
      have h1 : tx "nbdl" ∉ keywords := by decide
      have h2 : tx "match" ∉ keywords := by decide
      simp only [matchToks, List.cons_append, List.nil_append, readExpr, readPrimary, if_true, h1, if_false, qualified, h2]
      rw [qualified_stop _ (by simp [nq, tx])]
      rfl
    rw [hm] at this
    simp only [Option.some.injEq, Prod.mk.injEq] at this
    obtain ⟨rfl, -⟩ := this
    obtain ⟨-, -, -, -, -, -, -, -, hn⟩ := he
    exact absurd rfl hn

theorem expr_no_get : expectAll getToks (exprToks e ++ rest) = none := by
  cases hx : expectAll getToks (exprToks e ++ rest) with
  | none => rfl
  | some r =>
    have := read_expr he h
    rw [expectAll_some hx] at this
    have hm : readExpr (getToks ++ r) = some (.raw (tx "::nbdl::get"), .op (tx "(") :: r) := by
      have h1 : tx "nbdl" ∉ keywords := by decide
      have h2 : tx "get" ∉ keywords := by decide
      simp only [getToks, List.cons_append, List.nil_append, readExpr, readPrimary, if_true, h1, if_false, qualified, h2]
      rw [qualified_stop _ (by simp [nq, tx])]
      rfl
    rw [hm] at this
    simp only [Option.some.injEq, Prod.mk.injEq] at this
    obtain ⟨rfl, -⟩ := this
    obtain ⟨-, -, -, -, -, -, -, hn, -⟩ := he
    exact absurd rfl hn

theorem expr_no_overload (hr : rest.head? ≠ some (.op (tx "("))) :
    expectAll overloadToks (exprToks e ++ rest) = none := by
  cases hx : expectAll overloadToks (exprToks e ++ rest) with
  | none => rfl
  | some r =>
    have := read_expr he h
    rw [expectAll_some hx] at this
    have hm : readExpr (overloadToks ++ r) = some (.raw (tx "boost::hana::overload"), .op (tx "(") :: r) := by
      have h1 : tx "boost" ∉ keywords := by decide
      have h2 : tx "hana" ∉ keywords := by decide
      have h3 : tx "overload" ∉ keywords := by decide
      simp only [overloadToks, List.cons_append, List.nil_append, readExpr, readPrimary, if_true, h1, if_false, qualified, h2, h3]
      rw [qualified_stop _ (by simp [nq, tx])]
      rfl
    rw [hm] at this
    simp only [Option.some.injEq, Prod.mk.injEq] at this
    obtain ⟨-, rfl⟩ := this
    exact absurd rfl hr

end

/-! ### Arguments -/

theorem nq_op {t : String} (h : tx t ≠ tx "::") (r : List Tok) : nq (.op (tx t) :: r) := by
  simpa [nq] using h

theorem argsToks_length : ∀ (es : List CExpr), (∀ e ∈ es, PlainE e) → es.length ≤ (argsToks es).length
  | [], _ => by simp
  | [e], h => by simp [argsToks]
  | e :: e' :: es, h => by
    have := argsToks_length (e' :: es) fun x hx => h x (by simp [hx])
    simp only [argsToks, List.length_append, List.length_cons] at this ⊢
    omega

theorem read_args1 : ∀ (es : List CExpr), es ≠ [] → (∀ e ∈ es, PlainE e) → ∀ (n : Nat) (rest : List Tok),
    es.length ≤ n → readArgs1 n (argsToks es ++ rest) = some (es, rest)
  | [], h, _, _, _, _ => absurd rfl h
  | [e], _, h, 0, rest, hn => by simp at hn
  | [e], _, h, n + 1, rest, hn => by
    have he := read_expr (h e (by simp)) (nq_op (t := ")") (by decide) rest)
    simp only [argsToks, List.append_assoc, List.cons_append, List.nil_append, readArgs1, he, expect_op]
    rfl
  | e :: e' :: es, _, h, 0, rest, hn => by simp at hn
  | e :: e' :: es, _, h, n + 1, rest, hn => by
    have he := read_expr (h e (by simp)) (nq_op (t := ",") (by decide) (argsToks (e' :: es) ++ rest))
    have ih := read_args1 (e' :: es) (by simp) (fun x hx => h x (by simp [hx])) n rest (by simpa using hn)
    simp only [argsToks, List.append_assoc, List.cons_append] at ih he ⊢
    simp only [readArgs1, he, expect_op, ih, Option.map_some]

theorem read_args (es : List CExpr) (h : ∀ e ∈ es, PlainE e) (n : Nat) (rest : List Tok)
    (hn : (argsToks es).length ≤ n) : readArgs n (argsToks es ++ rest) = some (es, rest) := by
  cases es with
  | nil => simp [argsToks, readArgs, expect_op]
  | cons e es =>
    have h1 := read_args1 (e :: es) (by simp) h n rest (Nat.le_trans (argsToks_length _ h) hn)
    have : expect ")" (argsToks (e :: es) ++ rest) = none := by
      cases es with
      | nil =>
        simp only [argsToks, List.append_assoc]
        exact expr_no_op (h e (by simp)) (nq_op (by decide) _) (by decide) (by decide)
      | cons e' es =>
        simp only [argsToks, List.append_assoc]
        exact expr_no_op (h e (by simp)) (nq_op (by decide) _) (by decide) (by decide)
    simp only [readArgs, this, h1]

theorem read_name (x : Name) (r : List Tok) : readName (.word x.text :: r) = some (x, r) := by
  simp [readName, nameOf_text]

theorem read_word {m : Text} (h : plainWord m) (r : List Tok) : readWord (.word m :: r) = some (m, r) := by
  simp [readWord, h.2]

/-! ### Calls -/

theorem read_call {f : CExpr} (hf : PrimE f) (as : List CExpr) (ha : ∀ e ∈ as, PlainE e) (n : Nat) (x : Option Name)
    (rest : List Tok) (hn : (argsToks as).length ≤ n) :
    readCall n x (exprToks f ++ (.op (tx "(") :: (argsToks as ++ (.op (tx ";") :: rest)))) =
      some (.call x f as, rest) := by
  rw [readCall, read_primary hf (nq_op (by decide) _)]
  simp only [expect_op, read_args as ha n _ hn]
  rfl

theorem read_mcall {o : CExpr} (ho : PrimE o) {m : Text} (hm : plainWord m) (as : List CExpr) (ha : ∀ e ∈ as, PlainE e)
    (n : Nat) (x : Option Name) (rest : List Tok) (hn : (argsToks as).length ≤ n) :
    readCall n x (exprToks o ++ (.op (tx ".") :: .word m :: .op (tx "(") :: (argsToks as ++ (.op (tx ";") :: rest)))) =
      some (.mcall x o m as, rest) := by
  rw [readCall, read_primary ho (nq_op (by decide) _)]
  have : expect "(" (.op (tx ".") :: .word m :: .op (tx "(") :: (argsToks as ++ (.op (tx ";") :: rest))) = none := rfl
  simp only [this, expect_op, read_word hm, read_args as ha n _ hn]
  rfl

theorem read_member {o : CExpr} (ho : PrimE o) {m : Text} (hm : plainWord m) (n : Nat) (x : Name) (rest : List Tok) :
    readCall n (some x) (exprToks o ++ (.op (tx ".") :: .word m :: .op (tx ";") :: rest)) =
      some (.member x o m, rest) := by
  rw [readCall, read_primary ho (nq_op (by decide) _)]
  have h1 : expect "(" (.op (tx ".") :: .word m :: .op (tx ";") :: rest) = none := rfl
  have h2 : expect "(" (.op (tx ";") :: rest) = none := rfl
  simp only [h1, expect_op, read_word hm, h2]
  rfl

theorem read_get {o : CExpr} (ho : PlainE o) {k : Option CExpr} (hk : PlainK k) (n : Nat) (x : Name) (rest : List Tok)
    (hn : 2 ≤ n) :
    readInit n x (getToks ++ (exprToks o ++ (keyToks k ++ (.op (tx ")") :: .op (tx ";") :: rest)))) =
      some (.get x o k, rest) := by
  rw [readInit, expectAll_append]
  cases k with
  | none =>
    have := read_args1 [o] (by simp) (by simpa using ho) n (.op (tx ";") :: rest) (by simp; omega)
    simp only [argsToks, List.append_assoc, List.cons_append, List.nil_append] at this
    simp only [keyToks, List.nil_append, this, expect_op]
    rfl
  | some k =>
    have := read_args1 [o, k] (by simp) (by simpa using ⟨ho, hk⟩) n (.op (tx ";") :: rest) (by simpa using hn)
    simp only [argsToks, List.append_assoc, List.cons_append, List.nil_append] at this
    simp only [keyToks, List.cons_append, this, expect_op]
    rfl

/-! ### Lambdas and conditions -/

theorem readType_append : ∀ (a : List Tok) (d : Nat) (x y r : List Tok), readType d a = some (x, y) →
    readType d (a ++ r) = some (x, y ++ r)
  | [], d, x, y, r, h => by simp [readType] at h
  | t :: a, d, x, y, r, h => by
    simp only [readType, List.cons_append] at h ⊢
    have key : ∀ d', (readType d' a).map (fun q => (t :: q.1, q.2)) = some (x, y) →
        (readType d' (a ++ r)).map (fun q => (t :: q.1, q.2)) = some (x, y ++ r) := by
      intro d' h
      cases hq : readType d' a with
      | none => simp [hq] at h
      | some q =>
        obtain ⟨q1, q2⟩ := q
        simp only [hq, Option.map_some, Option.some.injEq, Prod.mk.injEq] at h
        rw [readType_append a d' q1 q2 r hq]
        simp [← h.1, ← h.2]
    split at h
    · next e =>
      rw [if_pos e]
      cases d with
      | zero =>
        simp only [Option.some.injEq, Prod.mk.injEq] at h ⊢
        simp [h.1, h.2]
      | succ d => exact key d h
    · next e =>
      rw [if_neg e]
      split at h
      · next e' => rw [if_pos e']; exact key _ h
      · next e' => rw [if_neg e']; exact key _ h

theorem read_constraint {type : Text} (ht : plainType type) (rest : List Tok) :
    readConstraint (constraintToks type ++ (autoToks ++ rest)) = some (type, autoToks ++ rest) := by
  unfold readConstraint constraintToks
  by_cases h : type = []
  · subst h
    rfl
  · rcases ht with h0 | ⟨ts, hl, hu, hr⟩
    · exact absurd h0 h
    · rw [if_neg h, hl, List.append_assoc, expectAll_append]
      have := readType_append _ _ _ _ (autoToks ++ rest) hr
      simp only [List.append_assoc, List.nil_append] at this
      simp only [Option.getD_some, List.append_assoc, this, Option.map_some, hu]

theorem read_head {type : Text} (ht : plainType type) (x : Name) (rest : List Tok) :
    readHead (lambdaToks ++ (constraintToks type ++ (autoToks ++ (.word x.text :: .op (tx ")") :: .op (tx "{") :: rest)))) =
      some ((type, x), rest) := by
  unfold readHead
  rw [expectAll_append]
  simp only [Option.bind_eq_bind, Option.bind_some, read_constraint ht, expectAll_append, read_name]
  rfl

theorem read_cond {c : CExpr} (hc : PlainE c) (rest : List Tok) :
    readCond (condToks c ++ rest) = some (c, rest) := by
  unfold readCond condToks
  simp only [List.cons_append, List.append_assoc, List.nil_append, expect_op, Option.bind_eq_bind, Option.bind_some,
    read_expr hc (nq_op (t := ")") (by decide) _)]
  rfl

theorem read_matched {s : CExpr} (hs : PlainE s) {k : Option CExpr} (hk : PlainK k) (rest : List Tok)
    (hr : (expect "[" rest).isSome ∨ (expectAll overloadToks rest).isSome) :
    readMatched (exprToks s ++ (keyToks k ++ (.op (tx ",") :: rest))) = some ((s, k), rest) := by
  unfold readMatched
  cases k with
  | none =>
    simp only [keyToks, List.nil_append, Option.bind_eq_bind, Option.bind_some, expect_op,
      read_expr hs (nq_op (t := ",") (by decide) _), if_pos hr]
  | some k =>
    have h1 := expr_no_op (t := "[") hk (nq_op (t := ",") (by decide) rest) (by decide) (by decide)
    have h2 := expr_no_overload hk (nq_op (t := ",") (by decide) rest) (by simp [tx])
    simp only [keyToks, List.cons_append, Option.bind_eq_bind, Option.bind_some, expect_op,
      read_expr hs (nq_op (t := ",") (by decide) _), read_expr hk (nq_op (t := ",") (by decide) _), h1, h2]
    rfl

/-! ### Statements -/

theorem stmtsToks_pos (ss : List CStmt) : 0 < (stmtsToks ss).length := by
  induction ss with
  | nil => simp [stmtsToks]
  | cons s ss ih => simp only [stmtsToks, List.length_append]; omega

theorem argsToks_pos (es : List CExpr) : 0 < (argsToks es).length := by
  match es with
  | [] => simp [argsToks]
  | [e] => simp [argsToks]
  | e :: e' :: es => simp only [argsToks, List.length_append, List.length_cons]; omega

theorem stmtToks_pos (s : CStmt) (h : PlainC s) : 0 < (stmtToks s).length := by
  cases s with
  | compose => exact h.elim
  | _ => simp only [stmtToks, List.length_append, List.length_cons]; simp <;> omega

/-- What a statement begins with is not the closing brace. -/
theorem stmt_no_brace (s : CStmt) (h : PlainC s) (rest : List Tok) : expect "}" (stmtToks s ++ rest) = none := by
  cases s with
  | compose => exact h.elim
  | get => rfl
  | member => rfl
  | void => rfl
  | matchOne => rfl
  | matchAll => rfl
  | ite => rfl
  | call x f as =>
    cases x with
    | some x => rfl
    | none =>
      simp only [stmtToks, declToks, List.nil_append, List.append_assoc]
      exact expr_no_op h.1.1 (nq_op (by decide) _) (by decide) (by decide)
  | mcall x o m as =>
    cases x with
    | some x => rfl
    | none =>
      simp only [stmtToks, declToks, List.nil_append, List.append_assoc]
      exact expr_no_op h.1.1 (nq_op (by decide) _) (by decide) (by decide)

theorem readStmt_init (n : Nat) (x : Name) (ts : List Tok) :
    readStmt (n + 1) (declToks (some x) ++ ts) = readInit n x ts := by
  have h1 : expectAll matchToks (declToks (some x) ++ ts) = none := rfl
  have h2 : expectWord "if" (declToks (some x) ++ ts) = none := rfl
  have h3 : expectAll autoToks (declToks (some x) ++ ts) = some (.word x.text :: .op (tx "=") :: ts) := rfl
  simp only [readStmt, h1, h2, h3, read_name, Option.bind_eq_bind, Option.bind_some, expect_op]

theorem readStmt_expr (n : Nat) {e : CExpr} (he : PlainE e) {rest : List Tok} (h : nq rest) :
    readStmt (n + 1) (exprToks e ++ rest) = readCall n none (exprToks e ++ rest) := by
  simp only [readStmt, expr_no_match he h, expr_no_keyword (t := "if") he h (by decide), expr_no_auto he h,
    expr_no_void he h]

mutual
theorem read_stmt : ∀ (s : CStmt), PlainC s → ∀ (n : Nat) (rest : List Tok), (stmtToks s).length < n →
    readStmt n (stmtToks s ++ rest) = some (s, rest)
  | _, _, 0, _, hn => absurd hn (Nat.not_lt_zero _)
  | .get x o k, h, n + 1, rest, hn => by
    simp only [stmtToks, List.append_assoc, List.cons_append, List.nil_append] at hn ⊢
    rw [readStmt_init, read_get h.1 h.2]
    simp only [declToks, List.length_append, List.length_cons, autoToks] at hn
    omega
  | .member x o m, h, n + 1, rest, hn => by
    simp only [stmtToks, List.append_assoc, List.cons_append, List.nil_append] at hn ⊢
    rw [readStmt_init, readInit, expr_no_get h.1.1 (nq_op (by decide) _)]
    exact read_member h.1 h.2 n x rest
  | .call x f as, h, n + 1, rest, hn => by
    simp only [stmtToks, List.append_assoc, List.cons_append, List.nil_append] at hn ⊢
    have hl : (argsToks as).length ≤ n := by
      simp only [List.length_append, List.length_cons] at hn; omega
    cases x with
    | some x =>
      rw [readStmt_init, readInit, expr_no_get h.1.1 (nq_op (by decide) _)]
      exact read_call h.1 as h.2 n (some x) rest hl
    | none =>
      rw [declToks, List.nil_append, readStmt_expr n h.1.1 (nq_op (by decide) _)]
      exact read_call h.1 as h.2 n none rest hl
  | .mcall x o m as, h, n + 1, rest, hn => by
    simp only [stmtToks, List.append_assoc, List.cons_append, List.nil_append] at hn ⊢
    have hl : (argsToks as).length ≤ n := by
      simp only [List.length_append, List.length_cons] at hn; omega
    cases x with
    | some x =>
      rw [readStmt_init, readInit, expr_no_get h.1.1 (nq_op (by decide) _)]
      exact read_mcall h.1 h.2.1 as h.2.2 n (some x) rest hl
    | none =>
      rw [declToks, List.nil_append, readStmt_expr n h.1.1 (nq_op (by decide) _)]
      exact read_mcall h.1 h.2.1 as h.2.2 n none rest hl
  | .compose _ _ _ _, h, _ + 1, _, _ => h.elim
  | .void e, h, n + 1, rest, hn => by
    simp only [stmtToks, List.append_assoc, List.cons_append, List.nil_append]
    have h1 : ∀ r, expectAll matchToks (.op (tx "(") :: r) = none := fun _ => rfl
    have h2 : ∀ r, expectWord "if" (.op (tx "(") :: r) = none := fun _ => rfl
    have h3 : ∀ r, expectAll autoToks (.op (tx "(") :: r) = none := fun _ => rfl
    have h4 : ∀ r, expectAll [.op (tx "("), .word (tx "void"), .op (tx ")")]
      (.op (tx "(") :: .word (tx "void") :: .op (tx ")") :: r) = some r := fun _ => rfl
    simp only [readStmt, h1, h2, h3, h4, Option.bind_eq_bind, Option.bind_some,
      read_expr (show PlainE e from h) (nq_op (t := ";") (by decide) _), expect_op]
  | .matchOne s k l, h, n + 1, rest, hn => by
    obtain ⟨hs, hk, hl⟩ := h
    have hlen : (lambdaToks' l).length < n := by
      simp only [stmtToks, List.length_append, List.length_cons, matchToks] at hn; omega
    have ih := read_lambda l hl n (.op (tx ")") :: .op (tx ";") :: rest) hlen
    have ho : expectAll overloadToks (lambdaToks' l ++ (.op (tx ")") :: .op (tx ";") :: rest)) = none := by
      cases l; rfl
    have hb : (expect "[" (lambdaToks' l ++ (.op (tx ")") :: .op (tx ";") :: rest))).isSome ∨
        (expectAll overloadToks (lambdaToks' l ++ (.op (tx ")") :: .op (tx ";") :: rest))).isSome := by
      cases l; exact .inl rfl
    simp only [stmtToks, List.append_assoc, List.cons_append, List.nil_append]
    simp only [readStmt, expectAll_append, read_matched hs hk _ hb, Option.bind_eq_bind, Option.bind_some, ho, ih]
    rfl
  | .matchAll s k ls, h, n + 1, rest, hn => by
    obtain ⟨hs, hk, hne, hl⟩ := h
    have hlen : (lambdasToks ls).length < n := by
      simp only [stmtToks, List.length_append, List.length_cons, matchToks] at hn; omega
    have ih := read_lambdas ls hne hl n (.op (tx ")") :: .op (tx ";") :: rest) hlen
    have hb : (expect "[" (overloadToks ++ (lambdasToks ls ++ (.op (tx ")") :: .op (tx ";") :: rest)))).isSome ∨
        (expectAll overloadToks (overloadToks ++ (lambdasToks ls ++ (.op (tx ")") :: .op (tx ";") :: rest)))).isSome := by
      rw [expectAll_append]; exact .inr rfl
    simp only [stmtToks, List.append_assoc, List.cons_append, List.nil_append]
    simp only [readStmt, expectAll_append, read_matched hs hk _ hb, Option.bind_eq_bind, Option.bind_some, ih]
    rfl
  | .ite c t e, h, n + 1, rest, hn => by
    obtain ⟨hc, ht, he⟩ := h
    have hl : (stmtsToks t).length < n ∧ (elseToks e).length < n := by
      simp only [stmtToks, List.length_append, List.length_cons] at hn; omega
    simp only [stmtToks, List.append_assoc, List.cons_append, List.nil_append]
    have h1 : ∀ r, expectAll matchToks (.word (tx "if") :: r) = none := fun _ => rfl
    have h2 : ∀ r, expectWord "if" (.word (tx "if") :: r) = some r := fun _ => rfl
    have h3 : ∀ r, expectWord "else" (.word (tx "else") :: r) = some r := fun _ => rfl
    simp only [readStmt, h1, h2, read_cond hc, Option.bind_eq_bind, Option.bind_some, read_stmts t ht n _ hl.1, h3,
      read_else e he n rest hl.2]

theorem read_else : ∀ (e : CElse), PlainEl e → ∀ (n : Nat) (rest : List Tok), (elseToks e).length < n →
    readElse n (elseToks e ++ rest) = some (e, rest)
  | _, _, 0, _, hn => absurd hn (Nat.not_lt_zero _)
  | .chain c t e, h, n + 1, rest, hn => by
    obtain ⟨hc, ht, he⟩ := h
    have hl : (stmtsToks t).length < n ∧ (elseToks e).length < n := by
      simp only [elseToks, List.length_append, List.length_cons] at hn; omega
    simp only [elseToks, List.append_assoc, List.cons_append, List.nil_append]
    have h2 : ∀ r, expectWord "if" (.word (tx "if") :: r) = some r := fun _ => rfl
    have h3 : ∀ r, expectWord "else" (.word (tx "else") :: r) = some r := fun _ => rfl
    simp only [readElse, h2, read_cond hc, Option.bind_eq_bind, Option.bind_some, read_stmts t ht n _ hl.1, h3,
      read_else e he n rest hl.2]
  | .block b, h, n + 1, rest, hn => by
    have hl : (stmtsToks b).length < n := by
      simp only [elseToks, List.length_cons] at hn; omega
    have h2 : ∀ r, expectWord "if" (.op (tx "{") :: r) = none := fun _ => rfl
    simp only [elseToks, List.cons_append, readElse, h2, expect_op, Option.bind_eq_bind, Option.bind_some,
      read_stmts b h n rest hl]

theorem read_lambda : ∀ (l : Lambda), PlainL l → ∀ (n : Nat) (rest : List Tok), (lambdaToks' l).length < n →
    readLambda n (lambdaToks' l ++ rest) = some (l, rest)
  | _, _, 0, _, hn => absurd hn (Nat.not_lt_zero _)
  | .mk type x body, h, n + 1, rest, hn => by
    have hl : (stmtsToks body).length < n := by
      simp only [lambdaToks', List.length_append, List.length_cons, lambdaToks] at hn; omega
    simp only [lambdaToks', List.append_assoc, List.cons_append, readLambda, read_head h.1, Option.bind_eq_bind,
      Option.bind_some, read_stmts body h.2 n rest hl]

theorem read_lambdas : ∀ (ls : List Lambda), ls ≠ [] → PlainLs ls → ∀ (n : Nat) (rest : List Tok),
    (lambdasToks ls).length < n → readLambdas n (lambdasToks ls ++ rest) = some (ls, rest)
  | [], h, _, _, _, _ => absurd rfl h
  | [l], _, h, 0, rest, hn => absurd hn (Nat.not_lt_zero _)
  | [l], _, h, n + 1, rest, hn => by
    have hl : (lambdaToks' l).length < n := by
      simp only [lambdasToks, List.length_append, List.length_cons] at hn; omega
    have h1 : ∀ r, expect "," (.op (tx ")") :: r) = none := fun _ => rfl
    simp only [lambdasToks, List.append_assoc, List.cons_append, List.nil_append, readLambdas,
      read_lambda l h.1 n _ hl, Option.bind_eq_bind, Option.bind_some, h1, expect_op]
  | l :: l' :: ls, _, h, 0, rest, hn => absurd hn (Nat.not_lt_zero _)
  | l :: l' :: ls, _, h, n + 1, rest, hn => by
    have hl : (lambdaToks' l).length < n ∧ (lambdasToks (l' :: ls)).length < n := by
      simp only [lambdasToks, List.length_append, List.length_cons] at hn ⊢; omega
    have ih := read_lambdas (l' :: ls) (by simp) h.2 n rest hl.2
    have e : lambdasToks (l :: l' :: ls) = lambdaToks' l ++ (.op (tx ",") :: lambdasToks (l' :: ls)) := by
      rw [lambdasToks]; simp
    simp only [e, List.append_assoc, List.cons_append, readLambdas,
      read_lambda l h.1 n _ hl.1, Option.bind_eq_bind, Option.bind_some, expect_op, ih]

theorem read_stmts : ∀ (ss : List CStmt), PlainCs ss → ∀ (n : Nat) (rest : List Tok), (stmtsToks ss).length < n →
    readStmts n (stmtsToks ss ++ rest) = some (ss, rest)
  | _, _, 0, _, hn => absurd hn (Nat.not_lt_zero _)
  | [], _, n + 1, rest, hn => by
    simp only [stmtsToks, List.cons_append, List.nil_append, readStmts, expect_op]
  | s :: ss, h, n + 1, rest, hn => by
    have p1 := stmtToks_pos s h.1
    have p2 := stmtsToks_pos ss
    have hl : (stmtToks s).length < n ∧ (stmtsToks ss).length < n := by
      simp only [stmtsToks, List.length_append] at hn; omega
    simp only [stmtsToks, List.append_assoc, readStmts, stmt_no_brace s h.1, read_stmt s h.1 n _ hl.1,
      Option.bind_eq_bind, Option.bind_some, read_stmts ss h.2 n rest hl.2]
end

/-! ### Functions -/

/-- A function whose text can be read. -/
def PlainF (f : CFunc) : Prop := plainWord f.name ∧ f.params ≠ [] ∧ PlainCs f.body

/-- The tokens of parameters with the closing parenthesis. -/
def paramsToks : List Name → List Tok
  | [] => [.op (tx ")")]
  | [x] => autoToks ++ [.word x.text, .op (tx ")")]
  | x :: xs => autoToks ++ (.word x.text :: .op (tx ",") :: paramsToks xs)

/-- The tokens of a function. -/
def funcToks (f : CFunc) : List Tok :=
  .word (tx "void") :: .word f.name :: .op (tx "(") :: (paramsToks f.params ++ (.op (tx "{") :: stmtsToks f.body))

theorem whole_params : ∀ (xs : List Name) {t : Text} {ts : List Tok}, Whole t ts →
    Whole (separated (tx ", ") (xs.map fun x => tx "auto&& " ++ x.text) ++ (tx "){\n" ++ t))
      (paramsToks xs ++ (.op (tx "{") :: ts))
  | [], t, ts, h => whole_piece (p := tx "){\n") (ps := [.op (tx ")"), .op (tx "{")]) rfl h
  | [x], t, ts, h => by
    have := whole_piece (p := tx "auto&& ") (ps := autoToks) rfl (whole_word x.text_identifier (t := tx "){\n" ++ t) rfl
      (whole_piece (ps := [.op (tx ")"), .op (tx "{")]) rfl h))
    simpa [separated, paramsToks] using this
  | x :: y :: xs, t, ts, h => by
    have ih := whole_params (y :: xs) h
    have := whole_piece (p := tx "auto&& ") (ps := autoToks) rfl (whole_word x.text_identifier
      (t := tx ", " ++ (separated (tx ", ") ((y :: xs).map fun x => tx "auto&& " ++ x.text) ++ (tx "){\n" ++ t))) rfl
      (whole_piece (ps := [.op (tx ",")]) rfl ih))
    simpa [separated, paramsToks] using this

theorem whole_func (f : CFunc) (h : PlainF f) : Whole f.text (funcToks f) := by
  have h1 := whole_params f.params (whole_stmts f.body h.2.2 (t := []) (ts := []) rfl)
  have h2 := whole_piece (p := tx "void ") (ps := [.word (tx "void")]) rfl
    (whole_word h.1.1 (t := tx "(" ++ _) rfl (whole_piece (ps := [.op (tx "(")]) rfl h1))
  simpa only [CFunc.text, funcToks, List.append_assoc, List.cons_append, List.nil_append, List.append_nil] using h2

theorem read_params : ∀ (xs : List Name), xs ≠ [] → ∀ (n : Nat) (rest : List Tok), (paramsToks xs).length < n →
    readParams n (paramsToks xs ++ rest) = some (xs, rest)
  | [], h, _, _, _ => absurd rfl h
  | [x], _, 0, rest, hn => absurd hn (Nat.not_lt_zero _)
  | [x], _, n + 1, rest, hn => by
    have h1 : ∀ r, expect "," (.op (tx ")") :: r) = none := fun _ => rfl
    simp only [paramsToks, List.append_assoc, List.cons_append, List.nil_append, readParams, expectAll_append, read_name,
      Option.bind_eq_bind, Option.bind_some, h1, expect_op]
  | x :: y :: xs, _, 0, rest, hn => absurd hn (Nat.not_lt_zero _)
  | x :: y :: xs, _, n + 1, rest, hn => by
    have e : paramsToks (x :: y :: xs) = autoToks ++ (.word x.text :: .op (tx ",") :: paramsToks (y :: xs)) := by
      rw [paramsToks]; simp
    rw [e] at hn ⊢
    have ih := read_params (y :: xs) (by simp) n rest (by
      simp only [List.length_append, List.length_cons] at hn ⊢; omega)
    simp only [List.append_assoc, List.cons_append, readParams, expectAll_append, read_name,
      Option.bind_eq_bind, Option.bind_some, expect_op, ih]

/-- A function is what its text is read as. -/
theorem readFunc_text (f : CFunc) (h : PlainF f) : readFunc f.text = some f := by
  have hl : lex f.text = some (funcToks f) := (whole_func f h).lex
  simp only [readFunc, hl]
  have h1 : (paramsToks f.params).length < (funcToks f).length + 1 ∧ (stmtsToks f.body).length < (funcToks f).length + 1 := by
    simp only [funcToks, List.length_cons, List.length_append]; omega
  generalize (funcToks f).length + 1 = n at h1
  have hb := read_stmts f.body h.2.2 n [] h1.2
  rw [List.append_nil] at hb
  have hv : ∀ r, expectWord "void" (.word (tx "void") :: r) = some r := fun _ => rfl
  simp only [readFuncToks, funcToks, hv, Option.bind_eq_bind, Option.bind_some, read_word h.1, expect_op,
    read_params f.params h.2.1 n _ h1.1, hb]

end Nbdl.Reader
