import Verif.ClassReader.Lemmas
/-!
# Reading back the text of a class
-/
namespace Nbdl.ClassReader
open Nbdl.Dsl Nbdl.Reader Nbdl.StoreDef

/-- A member that can be read. -/
def PlainM (params : List Text) (m : CMember) : Prop :=
  plainTypeName m.type ∧ plainWord m.name ∧ ∀ a ∈ m.init, PlainA params a

/-! ### Tokens -/

/-- The tokens of a declaration. -/
def declToks (m : CMember) : List Tok := (lex m.type).getD [] ++ [.word m.name, op ";"]

/-- The tokens of parameters with the closing parenthesis. -/
def paramsToks : List Text → List Tok
  | [] => [op ")"]
  | [x] => autoToks ++ [.word x, op ")"]
  | x :: y :: xs => autoToks ++ (.word x :: op "," :: paramsToks (y :: xs))

/-- The tokens of an initialiser. -/
def initToks (m : CMember) : List Tok := .word m.name :: op "(" :: argsToks m.init

/-- The tokens of initialisers. -/
def initsToks : List CMember → List Tok
  | [] => []
  | [m] => initToks m
  | m :: l :: ms => initToks m ++ (op "," :: initsToks (l :: ms))

/-- The tokens of a default constructor. -/
def defaultToks (cls : Text) (params : List Text) : List Tok :=
  if params = [] then [] else [.word cls, op "(", op ")", op "=", kw "default", op ";"]

/-- The last tokens. -/
def endToks : List Tok := [op "{", op "}", op "}", op ";"]

/-- The tokens of a class after its name. -/
def bodyToks (c : CClass) : List Tok :=
  [op "{", kw "public", op ":"] ++ (c.members.flatMap declToks ++ (defaultToks c.name c.params ++
    ([kw "explicit", .word c.name, op "("] ++ (paramsToks c.params ++ (op ":" :: (initsToks c.members ++ endToks))))))

/-! ### From text to tokens -/

theorem whole_decl {params : List Text} {m : CMember} (hm : PlainM params m) {t : Text} {ts : List Tok}
    (h : Whole t ts) : Whole (m.decl ++ t) (declToks m ++ ts) := by
  obtain ⟨⟨us, h1, -, -⟩, h2, -⟩ := hm
  have := Whole.after h1 (b := tx " " ++ (m.name ++ (tx ";\n" ++ t))) rfl (whole_piece (p := tx " ") (ps := []) rfl
    (whole_word h2.1 (t := tx ";\n" ++ t) rfl (whole_piece (ps := [op ";"]) rfl h)))
  simpa [CMember.decl, declToks, h1] using this

theorem whole_decls {params : List Text} : ∀ (ms : List CMember), (∀ m ∈ ms, PlainM params m) →
    ∀ {t : Text} {ts : List Tok}, Whole t ts →
    Whole ((ms.map CMember.decl).flatten ++ t) (ms.flatMap declToks ++ ts)
  | [], _, _, _, h => h
  | m :: ms, hm, t, ts, h => by
    have := whole_decl (hm m (by simp)) (whole_decls ms (fun l hl => hm l (by simp [hl])) h)
    simpa using this

theorem whole_params : ∀ (xs : List Text), (∀ x ∈ xs, identifier x = true) → ∀ {t : Text} {ts : List Tok}, Whole t ts →
    Whole (separated (tx ", ") (xs.map (tx "auto&& " ++ ·)) ++ (tx ")" ++ t)) (paramsToks xs ++ ts)
  | [], _, t, ts, h => whole_piece (p := tx ")") (ps := [op ")"]) rfl h
  | [x], hx, t, ts, h => by
    have := whole_piece (p := tx "auto&& ") (ps := autoToks) rfl (whole_word (hx x (by simp)) (t := tx ")" ++ t) rfl
      (whole_piece (ps := [op ")"]) rfl h))
    simpa [separated, paramsToks] using this
  | x :: y :: xs, hx, t, ts, h => by
    have ih := whole_params (y :: xs) (fun z hz => hx z (by simp [hz])) h
    have := whole_piece (p := tx "auto&& ") (ps := autoToks) rfl (whole_word (hx x (by simp))
      (t := tx ", " ++ (separated (tx ", ") ((y :: xs).map (tx "auto&& " ++ ·)) ++ (tx ")" ++ t))) rfl
      (whole_piece (ps := [op ","]) rfl ih))
    simpa [separated, paramsToks] using this

theorem whole_init {params : List Text} (hp : ∀ x ∈ params, identifier x = true) {m : CMember} (hm : PlainM params m)
    {t : Text} {ts : List Tok} (h : Whole t ts) : Whole (m.initText ++ t) (initToks m ++ ts) := by
  have h1 := whole_args hp m.init hm.2.2 h
  have := whole_word hm.2.1.1 (t := tx "(" ++ (separated (tx ", ") (m.init.map CArg.text) ++ (tx ")" ++ t))) rfl
    (whole_piece (ps := [op "("]) rfl h1)
  simpa [CMember.initText, initToks] using this

theorem whole_inits {params : List Text} (hp : ∀ x ∈ params, identifier x = true) : ∀ (ms : List CMember), ms ≠ [] →
    (∀ m ∈ ms, PlainM params m) → ∀ {t : Text} {ts : List Tok}, Whole t ts →
    Whole (separated (tx ", ") (ms.map CMember.initText) ++ t) (initsToks ms ++ ts)
  | [], h, _, _, _, _ => absurd rfl h
  | [m], _, hm, t, ts, h => whole_init hp (hm m (by simp)) h
  | m :: l :: ms, _, hm, t, ts, h => by
    have ih := whole_inits hp (l :: ms) (by simp) (fun z hz => hm z (by simp [hz])) h
    have := whole_init hp (hm m (by simp)) (whole_piece (p := tx ", ") (ps := [op ","]) rfl ih)
    simpa [separated, initsToks] using this

/-- A class that can be read. -/
structure PlainClass (c : CClass) : Prop where
  name : plainWord c.name
  params : ∀ x ∈ c.params, plainWord x
  distinct : c.params.Nodup
  some : c.members ≠ []
  members : ∀ m ∈ c.members, PlainM c.params m
  names : (c.members.map (·.name)).Nodup
  other : c.name ∉ c.members.map (·.name)

theorem lex_class (c : CClass) (h : PlainClass c) : lex c.text = some (kw "class" :: .word c.name :: bodyToks c) := by
  have hp : ∀ x ∈ c.params, identifier x = true := fun x hx => (h.params x hx).1
  have h1 := whole_inits hp c.members h.some h.members (t := tx "\n{ }\n};\n") (ts := endToks) rfl
  have h2 := whole_params c.params hp (whole_piece (p := tx " \n: ") (ps := [op ":"]) rfl h1)
  have h3 := whole_piece (p := tx "explicit ") (ps := [kw "explicit"]) rfl (whole_word h.name.1
    (t := tx "(" ++ _) rfl (whole_piece (p := tx "(") (ps := [op "("]) rfl h2))
  have h4 : ∀ {t : Text} {ts : List Tok}, Whole t ts →
      Whole ((if c.params = [] then [] else c.name ++ tx "() = default;\n") ++ t) (defaultToks c.name c.params ++ ts) := by
    intro t ts ht
    by_cases e : c.params = []
    · simpa [defaultToks, e] using ht
    · have := whole_word h.name.1 (t := tx "() = default;\n" ++ t) rfl
        (whole_piece (ps := [op "(", op ")", op "=", kw "default", op ";"]) rfl ht)
      simpa [defaultToks, e] using this
  have h5 := whole_piece (p := tx "class ") (ps := [kw "class"]) rfl (whole_word h.name.1
    (t := tx " {\npublic:\n" ++ _) rfl (whole_piece (p := tx " {\npublic:\n")
      (ps := [op "{", kw "public", op ":"]) rfl (whole_decls c.members h.members (h4 h3))))
  have := h5.lex
  simp only [CClass.text, bodyToks]
  have e : tx ") \n: " = tx ")" ++ tx " \n: " := rfl
  rw [e]
  simpa [tx, -lex] using this

/-! ### From tokens to the tree -/

theorem readDecl_one {params : List Text} {cls : Text} {m : CMember} (hm : PlainM params m) (r : List Tok) :
    ∃ us, lex m.type = some us ∧ untok us = m.type ∧ declToks m = us ++ [.word m.name, op ";"] ∧
      (∀ n, us.length ≤ n → readTypeName n (declToks m ++ r) = some (us, .word m.name :: op ";" :: r)) ∧
      ¬ ((expectWord "explicit" (declToks m ++ r)).isSome ∨ (expectAll [.word cls, op "("] (declToks m ++ r)).isSome) := by
  obtain ⟨⟨us, h1, h2, h3⟩, h4, -⟩ := hm
  have e : declToks m = us ++ [.word m.name, op ";"] := by simp [declToks, h1]
  refine ⟨us, h1, h2, e, ?_, ?_⟩
  · intro n hn
    have := readTypeName_more (r := .word m.name :: op ";" :: r) ⟨rfl, rfl⟩ hn h3
    rw [e]
    simpa using this
  · rw [e]
    rcases readTypeName_head h3 with ⟨v, rfl⟩ | ⟨w, v, rfl, hw, hv⟩
    · simp [expectWord, expectAll, op]
    · rintro (h | h)
      · simp only [List.cons_append, expectWord] at h
        split at h
        · rename_i e
          subst e
          exact absurd (hw (by decide)) (by decide)
        · simp at h
      · obtain ⟨s, hs⟩ := Option.isSome_iff_exists.1 h
        have := expectAll_some hs
        simp only [List.cons_append, List.nil_append, List.cons.injEq] at this
        cases v with
        | nil => simp [op] at this
        | cons t v =>
          simp only [List.cons_append, List.cons.injEq] at this
          rcases hv v with h' | h'
          · exact h' (by rw [this.2.1])
          · exact h' rfl

theorem readDecls_all {params : List Text} {cls : Text} {r : List Tok}
    (hr : (expectWord "explicit" r).isSome ∨ (expectAll [.word cls, op "("] r).isSome) : ∀ (ms : List CMember),
    (∀ m ∈ ms, PlainM params m) → ∀ (n : Nat), (ms.flatMap declToks).length < n →
    readDecls cls n (ms.flatMap declToks ++ r) = some (ms.map fun m => (m.type, m.name), r)
  | [], _, n, hn => by
    match n, hn with
    | n + 1, _ => simp only [List.flatMap_nil, List.nil_append, readDecls, if_pos hr, List.map_nil]
  | m :: ms, hm, n, hn => by
    match n, hn with
    | n + 1, hn =>
      obtain ⟨us, h1, h2, h3, h4, h5⟩ := readDecl_one (cls := cls) (hm m (by simp)) (ms.flatMap declToks ++ r)
      have hl : (declToks m).length = us.length + 2 := by rw [h3]; simp
      simp only [List.flatMap_cons, List.length_append] at hn
      have ih := readDecls_all hr ms (fun l hl => hm l (by simp [hl])) n (by omega)
      rw [List.flatMap_cons, List.append_assoc, readDecls, if_neg h5, h4 n (by omega)]
      simp only [readWord_plain (hm m (by simp)).2.1, expect_op, ih, Option.map_some, h2, List.map_cons]

theorem readParams1_all : ∀ (xs : List Text), xs ≠ [] → (∀ x ∈ xs, plainWord x) → ∀ (n : Nat) (r : List Tok),
    xs.length ≤ n → readParams1 n (paramsToks xs ++ r) = some (xs, r)
  | [], h, _, _, _, _ => absurd rfl h
  | [x], _, h, n, r, hn => by
    match n, hn with
    | n + 1, _ =>
      simp only [paramsToks, List.append_assoc, List.cons_append, List.nil_append, readParams1, expectAll_append,
        readWord_plain (h x (by simp))]
      rw [expect_other (by decide), expect_op]
      rfl
  | x :: y :: xs, _, h, n, r, hn => by
    match n, hn with
    | n + 1, hn =>
      have ih := readParams1_all (y :: xs) (by simp) (fun z hz => h z (by simp [hz])) n r (by simpa using hn)
      simp only [paramsToks, List.append_assoc, List.cons_append, readParams1, expectAll_append,
        readWord_plain (h x (by simp)), expect_op, ih, Option.map_some]

theorem readParams_all (xs : List Text) (h : ∀ x ∈ xs, plainWord x) (n : Nat) (r : List Tok) (hn : xs.length ≤ n) :
    readParams n (paramsToks xs ++ r) = some (xs, r) := by
  match xs with
  | [] => simp [readParams, paramsToks, expect_op]
  | [x] =>
    have := readParams1_all [x] (by simp) h n r hn
    rw [readParams, this]
    simp [paramsToks, autoToks, expect]
  | x :: y :: xs =>
    have := readParams1_all (x :: y :: xs) (by simp) h n r hn
    rw [readParams, this]
    simp [paramsToks, autoToks, expect]

theorem argsToks_length {params : List Text} : ∀ (as : List CArg), (∀ a ∈ as, PlainA params a) →
    as.length ≤ (argsToks as).length
  | [], _ => by simp
  | [a], _ => by simp [argsToks]
  | a :: b :: as, h => by
    have := argsToks_length (b :: as) fun c hc => h c (by simp [hc])
    simp only [argsToks, List.length_append, List.length_cons] at this ⊢
    omega

theorem readInits_all {params : List Text} : ∀ (ms : List CMember), ms ≠ [] → (∀ m ∈ ms, PlainM params m) →
    ∀ (n : Nat) (r : List Tok), expect "," r = none → (initsToks ms).length ≤ n →
    readInits params n (initsToks ms ++ r) = some (ms.map fun m => (m.name, m.init), r)
  | [], h, _, _, _, _, _ => absurd rfl h
  | [m], _, h, n, r, hr, hn => by
    have hm := h m (by simp)
    have hl := argsToks_length m.init hm.2.2
    simp only [initsToks, initToks, List.length_cons] at hn
    match n, hn with
    | n + 1, hn =>
      simp only [initsToks, initToks, List.cons_append, readInits, readWord_plain hm.2.1, expect_op,
        readArgs_args m.init hm.2.2 n r (by omega), hr, List.map_cons, List.map_nil]
  | m :: l :: ms, _, h, n, r, hr, hn => by
    have hm := h m (by simp)
    have hl := argsToks_length m.init hm.2.2
    simp only [initsToks, initToks, List.cons_append, List.length_cons, List.length_append] at hn
    match n, hn with
    | n + 1, hn =>
      have ih := readInits_all (l :: ms) (by simp) (fun z hz => h z (by simp [hz])) n r hr (by omega)
      simp only [initsToks, initToks, List.cons_append, List.append_assoc, readInits, readWord_plain hm.2.1, expect_op,
        readArgs_args m.init hm.2.2 n _ (show m.init.length ≤ n by omega), ih, Option.map_some, List.map_cons]

theorem lookup_init : ∀ (ms : List CMember), (ms.map (·.name)).Nodup → ∀ m ∈ ms,
    (ms.map fun l => (l.name, l.init)).lookup m.name = some m.init
  | [], _, m, h => by simp at h
  | l :: ms, hn, m, h => by
    simp only [List.map_cons, List.nodup_cons] at hn
    rcases List.mem_cons.1 h with rfl | h
    · simp
    · have hne : m.name ≠ l.name := fun e => hn.1 (by rw [← e]; exact List.mem_map_of_mem h)
      rw [List.map_cons, List.lookup_cons, beq_false_of_ne hne]
      exact lookup_init ms hn.2 m h

theorem assemble_class (c : CClass) (h : PlainClass c) (dflt : Bool) (hd : dflt = true ↔ c.params ≠ []) :
    assemble c.name (c.members.map fun m => (m.type, m.name)) dflt c.params
      (c.members.map fun m => (m.name, m.init)) = some c := by
  have e1 : (c.members.map fun m => (m.type, m.name)).map (·.2) = c.members.map (·.name) := by simp [List.map_map, Function.comp_def]
  have e2 : (c.members.map fun m => (m.name, m.init)).map (·.1) = c.members.map (·.name) := by simp [List.map_map, Function.comp_def]
  have hc : c.params.Nodup ∧ ((c.members.map fun m => (m.type, m.name)).map (·.2)).Nodup ∧
      ((c.members.map fun m => (m.name, m.init)).map (·.1)).Nodup ∧
      c.name ∉ (c.members.map fun m => (m.type, m.name)).map (·.2) ∧
      (∀ x ∈ (c.members.map fun m => (m.name, m.init)).map (·.1), x ∈ (c.members.map fun m => (m.type, m.name)).map (·.2)) ∧
      (∀ x ∈ (c.members.map fun m => (m.type, m.name)).map (·.2), x ∈ (c.members.map fun m => (m.name, m.init)).map (·.1)) ∧
      (dflt = true ↔ c.params ≠ []) := by
    rw [e1, e2]
    exact ⟨h.distinct, h.names, h.names, h.other, fun _ hx => hx, fun _ hx => hx, hd⟩
  rw [assemble, if_pos hc]
  have e3 : (c.members.map fun m => (m.type, m.name)).map (fun d => (⟨d.1, d.2,
      ((c.members.map fun m => (m.name, m.init)).lookup d.2).getD []⟩ : CMember)) = c.members := by
    rw [List.map_map]
    conv => rhs; rw [← List.map_id c.members]
    refine List.map_congr_left fun m hm => ?_
    simp [lookup_init c.members h.names m hm]
  rw [e3]

theorem params_length : ∀ (xs : List Text), xs.length ≤ (paramsToks xs).length
  | [] => by simp
  | [x] => by simp [paramsToks]
  | x :: y :: xs => by
    have := params_length (y :: xs)
    simp only [paramsToks, List.length_append, List.length_cons] at this ⊢
    omega

theorem readDefault_class (cls : Text) (params : List Text) (r : List Tok)
    : readDefault cls (defaultToks cls params ++ (kw "explicit" :: r)) =
      if cls = tx "explicit" ∧ params = [] then readDefault cls (kw "explicit" :: r) else (decide (params ≠ []), kw "explicit" :: r) := by
  by_cases e : params = []
  · by_cases hc : cls = tx "explicit"
    · simp [defaultToks, e, hc]
    · have : expectAll [.word cls, op "(", op ")", op "=", kw "default", op ";"] (kw "explicit" :: r) = none := by
        have hne : Tok.word cls ≠ kw "explicit" := fun h => hc (by simpa [kw] using h)
        simp [expectAll, hne]
      simp [defaultToks, e, hc, readDefault, this]
  · have := expectAll_append [.word cls, op "(", op ")", op "=", kw "default", op ";"] (kw "explicit" :: r)
    simp only [defaultToks, if_neg e, readDefault, this]
    simp [e]

theorem readMembers_class (c : CClass) (h : PlainClass c) (n : Nat) (hn : (bodyToks c).length < n) :
    readMembers n c.name (bodyToks c) = some c := by
  have hx : c.name ≠ tx "explicit" := fun e => h.name.2 (by rw [e]; decide)
  let r4 := paramsToks c.params ++ (op ":" :: (initsToks c.members ++ endToks))
  let r3 := [kw "explicit", .word c.name, op "("] ++ r4
  let r2 := defaultToks c.name c.params ++ r3
  have hlen : (c.members.flatMap declToks).length < n ∧ c.params.length ≤ n ∧ (initsToks c.members).length ≤ n := by
    have := params_length c.params
    simp only [bodyToks, List.length_append, List.length_cons] at hn
    omega
  have h1 : readDecls c.name n (c.members.flatMap declToks ++ r2) = some (c.members.map fun m => (m.type, m.name), r2) := by
    refine readDecls_all ?_ c.members h.members n hlen.1
    by_cases e : c.params = []
    · left
      simp [r2, r3, defaultToks, e, expectWord, kw]
    · right
      simp [r2, r3, defaultToks, e, expectAll]
  have h2 : readDefault c.name r2 = (decide (c.params ≠ []), r3) := by
    have := readDefault_class c.name c.params (.word c.name :: op "(" :: r4)
    rw [if_neg (fun e => hx e.1)] at this
    exact this
  have h3 := readParams_all c.params h.params n (op ":" :: (initsToks c.members ++ endToks)) hlen.2.1
  have h4 := readInits_all c.members h.some h.members n endToks rfl hlen.2.2
  have e : bodyToks c = [op "{", kw "public", op ":"] ++ (c.members.flatMap declToks ++ r2) := rfl
  rw [e, readMembers]
  simp only [expectAll_append, h1, h2, r3, r4, h3, expect_op, h4]
  rw [if_pos (by rfl)]
  exact assemble_class c h _ (by simp)

theorem readDecl_class (c : CClass) (h : PlainClass c) : readDecl c.text = some (.cls c) := by
  have h1 : readAlias ((bodyToks c).length + 1 + 1 + 1) c.name (bodyToks c) = none := by
    simp [readAlias, bodyToks, expectAll, op]
    rfl
  have h2 := readMembers_class c h ((bodyToks c).length + 1 + 1 + 1) (by omega)
  have h3 : expectWord "struct" (kw "class" :: .word c.name :: bodyToks c) = none := by
    simp only [expectWord, kw]
    rfl
  simp only [readDecl, lex_class c h, readDeclToks, h3, expectWord_kw, readWord_plain h.name, List.length_cons, h1, h2,
    Option.map_some]

end Nbdl.ClassReader
