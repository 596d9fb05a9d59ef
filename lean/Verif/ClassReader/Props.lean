import Verif.ClassReader.Alias
/-!
# C115: the generated class text, read as C++, is the store defined
-/
namespace Nbdl.ClassReader
open Nbdl.Dsl Nbdl.Reader Nbdl.StoreDef

/-! ### Plain definitions have plain classes -/

theorem paramName_plain (i : Nat) : plainWord (paramName i) :=
  ⟨paramName_identifier i, name_no_keyword ⟨.arg, i⟩⟩

theorem anon_plain (i : Nat) : plainWord (anonName i) := by
  constructor
  · have h : (Nat.toDigits 10 i).all (fun d => d.isAlphanum || d == '_') = true := by
      rw [List.all_eq_true]
      intro c hc
      have := Nat.isDigit_of_mem_toDigits (by decide) (by decide) hc
      simp [Char.isAlphanum, this]
    simp only [anonName, toString_toList]
    simp only [tx, List.cons_append, identifier, List.all_append, h]
    simp [identifier, h]
  · intro h
    have : ∀ w ∈ keywords, w.take 5 ≠ tx "anon_" := by decide +kernel
    exact this _ h (by simp [anonName, tx])

theorem word_no_colon {w : Text} (h : identifier w = true) : ':' ∉ w := by
  intro hc
  cases w with
  | nil => simp at hc
  | cons c cs =>
    simp only [identifier, Bool.and_eq_true, List.all_eq_true] at h
    rcases List.mem_cons.1 hc with rfl | hc
    · exact absurd h.1 (by decide)
    · exact absurd (h.2 ':' hc) (by decide)

theorem lastComponent_plain {w : Text} (h : ':' ∉ w) : lastComponent w = w := by
  have := List.takeWhile_append_of_pos (p := (· ≠ ':')) (l₁ := w.reverse) (l₂ := []) (by
    intro x hx
    simp only [ne_eq, decide_not, Bool.not_eq_true', decide_eq_false_iff_not]
    rintro rfl
    exact h (by simpa using hx))
  simp only [List.append_nil, List.takeWhile_nil] at this
  rw [lastComponent, this, List.reverse_reverse]

theorem plain_astArg (params : Nat) (args : List Val) (later : List Item) (e : Expr) (ha : argAccepted params e = true)
    (hp : plainArg params e) : PlainA ((List.range params).map paramName) (astArg args later (argVal e)) := by
  cases e with
  | var x => simpa [argAccepted, argVal, astArg, PlainA] using ⟨x, by simpa [argAccepted] using ha, rfl⟩
  | sym t =>
    obtain ⟨ts, h1, h2, h3, h4, h5⟩ := hp
    refine ⟨?_, ts, h1, h2, h3, h4, ?_⟩
    · rintro rfl; simp [argAccepted] at ha
    · intro x hx
      simp only [List.mem_map, List.mem_range] at hx
      obtain ⟨i, hi, rfl⟩ := hx
      exact h5 i hi
  | num i => trivial
  | str s => exact hp
  | path => simp [argAccepted] at ha
  | visit => simp [argAccepted] at ha

theorem plain_members (params : Nat) : ∀ (es : List Elem) (cnt : Nat), (∀ e ∈ es, memberAccepted params e = true) →
    (∀ e ∈ es, plainElem params e) →
    ∀ m ∈ astMembers cnt (es.map toItem), PlainM ((List.range params).map paramName) m
  | [], _, _, _, m, hm => by simp [astMembers] at hm
  | e :: es, cnt, ha, hp, m, hm => by
    match e, ha e (by simp), hp e (by simp) with
    | .compose k (.store t as), ha1, hp1 =>
      simp only [List.map_cons, astMembers, List.mem_cons] at hm
      rcases hm with rfl | hm
      · obtain ⟨hn, ht, hq⟩ := hp1
        simp only [memberAccepted, Bool.and_eq_true, List.all_eq_true] at ha1
        refine ⟨ht, ?_, ?_⟩
        · cases k with
          | member n => exact hn n rfl
          | text _ => exact anon_plain cnt
          | param _ => exact anon_plain cnt
        · intro a hma
          simp only [toItem, List.mem_map] at hma
          obtain ⟨v, ⟨x, hx, rfl⟩, rfl⟩ := hma
          exact plain_astArg params _ _ x (ha1.2 x hx) (hq x hx)
      · exact plain_members params es _ (fun x hx => ha x (by simp [hx])) (fun x hx => hp x (by simp [hx])) m hm
    | .compose k (.variant _ _), ha1, _ => simp [memberAccepted] at ha1
    | .compose k (.param _), ha1, _ => simp [memberAccepted] at ha1
    | .single _, ha1, _ => simp [memberAccepted] at ha1

theorem plain_class (d : Def) (hne : d.elems ≠ []) (h : ∀ e ∈ d.elems, memberAccepted d.params e = true)
    (hp : plainDef d) : PlainClass (astClass (getName d.name) d.params (d.elems.map toItem)) := by
  have hc := word_no_colon hp.name.1
  have hn : getName d.name = d.name := by rw [getName_plain d.name hc, lastComponent_plain hc]
  have hg := givenOf_elems d.params d.elems h
  have hi := implements_members d h hc
  have hnames := astMembers_names d.params (d.elems.map toItem) (by rw [hg]; exact hp.nodup)
    (fun i hi => (hp.anon i).1 (by rw [hg] at hi; exact hi))
  refine ⟨by rw [show (astClass (getName d.name) d.params (d.elems.map toItem)).name = getName d.name from rfl, hn]; exact hp.name,
    ?_, hi.params.2.1, ?_, plain_members d.params d.elems d.params h hp.elems, hnames.1, ?_⟩
  · intro x hx
    simp only [astClass, List.mem_map, List.mem_range] at hx
    obtain ⟨i, -, rfl⟩ := hx
    exact paramName_plain i
  · intro e
    have := hi.members.1
    rw [e] at this
    exact hne (List.length_eq_zero_iff.1 this.symm)
  · intro hx
    rw [show (astClass (getName d.name) d.params (d.elems.map toItem)).name = getName d.name from rfl, hn] at hx
    rcases hnames.2 _ hx with h1 | ⟨n, -, h1⟩
    · rw [hg] at h1
      exact hp.other h1
    · exact (hp.anon n).2 h1.symm

theorem plain_unquote : ∀ (s : Text), plainString s → unquote s = some s
  | [], _ => rfl
  | c :: s, h => by
    obtain ⟨h1, h2, h3⟩ := h c (by simp)
    have ih := plain_unquote s fun d hd => h d (by simp [hd])
    unfold unquote
    split <;> simp_all

theorem plain_stringsOk (d : Def) (hp : plainDef d) : d.stringsOk := by
  intro k t es s hm hs
  exact plain_unquote s ((hp.elems _ hm).2.2 _ hs)

/-! ### The properties -/

/-- C115.  For every definition of members, if its names are distinct words, its types (qualified) names, its strings
hold no quote, backslash or line end, and no other C++ text in it has a comma outside of parentheses or mentions a
parameter (`plainDef`), the generated text is a C++ class: read as C++ it is a class that implements the definition.
So its constructor, with the arguments of each initialiser evaluated in any order, uses no argument after it was moved
from, and every member gets the objects described. -/
theorem class_text_reads_partial (d : Def) (hne : d.elems ≠ []) (h : ∀ e ∈ d.elems, memberAccepted d.params e = true)
    (hp : plainDef d) : ∃ (t : Text) (c : CClass), compileStore d = .ok t ∧ readDecl t = some (.cls c) ∧
      Implements d c ∧
      ∀ {V : Type} (w : Consts V) (args : List V), args.length = d.params → ∀ orders, Orders c.members orders →
        ∃ r, construct w (bindParams c.params args) [] c.members orders = some r ∧
          described w args d.elems = some (r.map (·.2)) := by
  have hi := implements_members d h (word_no_colon hp.name.1)
  refine ⟨_, _, ?_, readDecl_class _ (plain_class d hne h hp), hi, fun w args hl orders ho => ?_⟩
  · have hb := buildElems_members d.params d.elems h .unit
    simp only [compileStore, build, hb]
    exact writeStore_members d.name d.params .unit rfl (fun _ => rfl) d.elems hne h
  · obtain ⟨r, hr, hd, -⟩ := hi.constructs w args hl (plain_stringsOk d hp) orders ho
    exact ⟨r, hr, hd⟩

/-- C115.  A definition of one store, or of a choice of stores, read as C++ is a strong alias of a type, which has the
tokens of the type of the store, or of the holder of all the alternatives in order. -/
theorem alias_text_reads_partial (name : Text) (params : Nat) (s : Store) (h : s.typed params = true)
    (hn : plainWord name) (hs : plainStore s) : ∃ (t : Text) (ts : List Tok),
      compileStore ⟨name, params, [.single s]⟩ = .ok t ∧ lex s.cppType = some ts ∧
      readDecl t = some (.alias name ts) := by
  have hc := word_no_colon hn.1
  obtain ⟨ts, ht⟩ := store_type s hs
  have h1 := store_single_exact name params s h hc
  rw [lastComponent_plain hc] at h1
  exact ⟨_, ts, h1, ht.1, readDecl_alias hn ht⟩

/-- C115.  A definition of nothing, read as C++, is an empty struct. -/
theorem tag_text_reads_partial (name : Text) (params : Nat) (hn : plainWord name) : ∃ t : Text,
    compileStore ⟨name, params, []⟩ = .ok t ∧ readDecl t = some (.tag name) := by
  have hc := word_no_colon hn.1
  have h1 := store_tag name params hc
  rw [lastComponent_plain hc] at h1
  exact ⟨_, h1, by rw [List.append_assoc]; exact readDecl_tag hn⟩

/-- C115.  Two definitions with the same text have as many parameters and members, and initialise them with the same
objects, whatever the arguments. -/
theorem same_text_same_store_partial (d e : Def) (hd : d.elems ≠ []) (he : e.elems ≠ [])
    (had : ∀ x ∈ d.elems, memberAccepted d.params x = true) (hae : ∀ x ∈ e.elems, memberAccepted e.params x = true)
    (hpd : plainDef d) (hpe : plainDef e) (h : compileStore d = compileStore e) :
    d.name = e.name ∧ d.params = e.params ∧ d.elems.length = e.elems.length ∧
      ∀ {V : Type} (w : Consts V) (args : List V), args.length = d.params →
        described w args d.elems = described w args e.elems := by
  obtain ⟨t, c, a1, a2, a3, a4⟩ := class_text_reads_partial d hd had hpd
  obtain ⟨u, c', b1, b2, b3, b4⟩ := class_text_reads_partial e he hae hpe
  rw [a1, b1, Out.ok.injEq] at h
  subst h
  rw [a2, Option.some.injEq, CDecl.cls.injEq] at b2
  subst b2
  have hparams : d.params = e.params := by rw [← a3.params.1, ← b3.params.1]
  refine ⟨?_, hparams, by rw [← a3.members.1, ← b3.members.1], fun w args hl => ?_⟩
  · have h1 := a3.name
    rw [b3.name, lastComponent_plain (word_no_colon hpd.name.1), lastComponent_plain (word_no_colon hpe.name.1)] at h1
    exact h1.symm
  · have ho : ∀ ms : List CMember, Orders ms (ms.map (·.init)) := by
      intro ms
      induction ms with
      | nil => trivial
      | cons m ms ih => exact ⟨List.Perm.refl _, ih⟩
    obtain ⟨r, h1, h2⟩ := a4 w args hl _ (ho c.members)
    obtain ⟨r', h3, h4⟩ := b4 w args (hl.trans hparams) _ (ho c.members)
    rw [h1, Option.some.injEq] at h3
    subst h3
    rw [h2, h4]

/-! ### The hypotheses are met -/

/-- The text, if there is one. -/
def okText : Out → Text
  | .ok t => t
  | _ => []

theorem plainTypeName_of {t : Text} (h : lex t = some ((lex t).getD []) ∧ untok ((lex t).getD []) = t ∧
    readTypeName ((lex t).getD []).length ((lex t).getD []) = some ((lex t).getD [], [])) : plainTypeName t := ⟨_, h⟩

theorem refused_of {d : Def} (h : d.accepted = true ∧ compileStore d = .ok (okText (compileStore d)) ∧
    readDecl (okText (compileStore d)) = none) : d.accepted = true ∧ ∃ t, compileStore d = .ok t ∧ readDecl t = none :=
  ⟨h.1, _, h.2⟩

/-- A definition with two parameters, a type with template arguments, other C++ text and a string. -/
def example1 : Def where
  name := tx "my_store"
  params := 2
  elems := [.compose (.member (tx "foo")) (.store (tx "::ns::Foo<int,Bar<7>>") [.var 0, .num (-5)]),
    .compose (.text (tx "key_type")) (.store (tx "Bar") [.var 1, .sym (tx "make(x,1)+ns::y"), .var 1]),
    .compose (.param 1) (.store (tx "Baz") [.str (tx "x, (y"), .var 0])]

theorem anon_not {x : Text} (h : x.take 5 ≠ tx "anon_") (i : Nat) : anonName i ≠ x := by
  rintro rfl
  exact h (by simp [anonName, tx])

theorem example1_plain : plainDef example1 where
  name := ⟨by decide, by decide +kernel⟩
  elems := by
    intro e he
    simp only [example1, List.mem_cons, List.not_mem_nil, or_false] at he
    rcases he with rfl | rfl | rfl
    · refine ⟨fun n hn => ?_, plainTypeName_of (by decide +kernel), ?_⟩
      · simp only [Key.member.injEq] at hn
        subst hn
        exact ⟨by decide, by decide +kernel⟩
      · intro x hx
        simp only [List.mem_cons, List.not_mem_nil, or_false] at hx
        rcases hx with rfl | rfl <;> trivial
    · refine ⟨by simp, plainTypeName_of (by decide +kernel), ?_⟩
      intro x hx
      simp only [List.mem_cons, List.not_mem_nil, or_false] at hx
      rcases hx with rfl | rfl | rfl
      · trivial
      · refine ⟨(lex (tx "make(x,1)+ns::y")).getD [], by decide +kernel, by decide +kernel, by decide +kernel, by decide +kernel, ?_⟩
        intro i hi
        have : i = 0 ∨ i = 1 := by
          have : i < 2 := hi
          omega
        rcases this with rfl | rfl <;> decide +kernel
      · trivial
    · refine ⟨by simp, plainTypeName_of (by decide +kernel), ?_⟩
      intro x hx
      simp only [List.mem_cons, List.not_mem_nil, or_false] at hx
      rcases hx with rfl | rfl
      · show plainString _
        unfold plainString
        decide
      · trivial
  nodup := by decide
  anon := by
    intro i
    refine ⟨?_, anon_not (by decide) i⟩
    intro h
    have : anonName i = tx "foo" := by simpa [Def.givenNames, example1] using h
    exact anon_not (by decide) i this
  other := by decide

example : example1.elems ≠ [] ∧ ∀ e ∈ example1.elems, memberAccepted example1.params e = true := by
  refine ⟨by simp [example1], ?_⟩
  intro e he
  simp only [example1, List.mem_cons, List.not_mem_nil, or_false] at he
  rcases he with rfl | rfl | rfl <;> decide

/-- What is read from its text. -/
example : ∃ t, compileStore example1 = .ok t ∧ readDecl t = some (.cls ⟨tx "my_store", [tx "arg_0", tx "arg_1"],
    [⟨tx "::ns::Foo<int,Bar<7>>", tx "foo", [.name (tx "arg_0") false, .int (-5)]⟩,
     ⟨tx "Bar", tx "anon_2", [.name (tx "arg_1") false, .raw (tx "make(x,1)+ns::y"), .name (tx "arg_1") false]⟩,
     ⟨tx "Baz", tx "anon_3", [.str (tx "x, (y"), .name (tx "arg_0") true]⟩]⟩) :=
  ⟨okText (compileStore example1), by decide +kernel, by decide +kernel⟩

example : (Store.variant (.store (tx "A<1>") [.num 1]) [.store (tx "::ns::B") []]).typed 1 = true ∧
    plainStore (.variant (.store (tx "A<1>") [.num 1]) [.store (tx "::ns::B") []]) :=
  ⟨rfl, plainTypeName_of (by decide +kernel), plainTypeName_of (by decide +kernel), trivial⟩

example : readDecl (aliasText (tx "s") (tx "::nbdl::variant_holder<A<1>, ::ns::B>")) = some (.alias (tx "s")
    [op "::", kw "nbdl", op "::", kw "variant_holder", op "<", kw "A", op "<", .num (tx "1"), op ">", op ",", op "::",
     kw "ns", op "::", kw "B", op ">"]) := by decide +kernel

/-! ### Where it fails -/

/-- The definition takes a parameter, forwards it to the first member, and gives the second one text of its own. -/
def captured : Def where
  name := tx "my_store"
  params := 1
  elems := [.compose (.member (tx "foo")) (.store (tx "Foo") [.var 0]),
    .compose (.member (tx "bar")) (.store (tx "Bar") [.sym (tx "arg_0")])]

/-- C115.  C++ text that is the name made up for a parameter is captured by it: the definition is accepted and
describes objects, but in the class the second member is initialised with the parameter after it was moved from. -/
theorem captured_parameter_violated : ∃ (t : Text) (c : CClass), captured.accepted = true ∧
    compileStore captured = .ok t ∧ readDecl t = some (.cls c) ∧
    ∀ (w : Consts Nat), described w [7] captured.elems = some [(tx "Foo", [7]), (tx "Bar", [w.cexpr (tx "arg_0")])] ∧
      ∀ orders, Orders c.members orders → construct w (bindParams c.params [7]) [] c.members orders = none := by
  refine ⟨okText (compileStore captured), ⟨tx "my_store", [tx "arg_0"], [⟨tx "Foo", tx "foo", [.name (tx "arg_0") true]⟩,
    ⟨tx "Bar", tx "bar", [.name (tx "arg_0") false]⟩]⟩, by decide +kernel, by decide +kernel, by decide +kernel, fun w => ⟨rfl, ?_⟩⟩
  intro orders ho
  match orders, ho with
  | [o1, o2], ho =>
    obtain ⟨h1, h2, -⟩ := ho
    have e1 : o1 = [.name (tx "arg_0") true] := by simpa using h1
    have e2 : o2 = [.name (tx "arg_0") false] := by simpa using h2
    subst e1 e2
    rfl
  | [], ho => exact ho.elim
  | [_], ho => exact ho.2.elim
  | _ :: _ :: _ :: _, ho => exact ho.2.2.elim

/-- C115.  A comma in C++ text is one between arguments: the member described has one argument, that of the class
two. -/
theorem comma_argument_violated : ∃ (t : Text) (c : CClass),
    compileStore ⟨tx "s", 0, [.compose (.member (tx "m")) (.store (tx "M") [.sym (tx "a,b")])]⟩ = .ok t ∧
    readDecl t = some (.cls c) ∧
    ¬ Implements ⟨tx "s", 0, [.compose (.member (tx "m")) (.store (tx "M") [.sym (tx "a,b")])]⟩ c := by
  refine ⟨okText (compileStore ⟨tx "s", 0, [.compose (.member (tx "m")) (.store (tx "M") [.sym (tx "a,b")])]⟩),
    ⟨tx "s", [], [⟨tx "M", tx "m", [.raw (tx "a"), .raw (tx "b")]⟩]⟩, by decide +kernel, by decide +kernel, ?_⟩
  intro h
  obtain ⟨m, h1, -, h2, -⟩ := h.members.2 0 _ _ _ rfl
  simp only [List.getElem?_cons_zero, Option.some.injEq] at h1
  subst h1
  simp at h2

/-- C115.  Definitions which are accepted although their text is no class: two members of the same name, a member with
the name of the class, a member with a name that is made up for another one, a string with a quote. -/
theorem no_class_violated : ∀ d ∈ ([
    ⟨tx "s", 0, [.compose (.member (tx "m")) (.store (tx "M") []), .compose (.member (tx "m")) (.store (tx "M") [])]⟩,
    ⟨tx "s", 0, [.compose (.member (tx "s")) (.store (tx "M") [])]⟩,
    ⟨tx "s", 0, [.compose (.text (tx "k")) (.store (tx "M") []), .compose (.member (tx "anon_0")) (.store (tx "M") [])]⟩,
    ⟨tx "s", 0, [.compose (.member (tx "m")) (.store (tx "M") [.str (tx "a\"b")])]⟩] : List Def),
    d.accepted = true ∧ ∃ t, compileStore d = .ok t ∧ readDecl t = none := by
  intro d hd
  simp only [List.mem_cons, List.not_mem_nil, or_false] at hd
  rcases hd with rfl | rfl | rfl | rfl <;> exact refused_of (by decide +kernel)

end Nbdl.ClassReader
