import Verif.Dsl.Accept
/-!
# Properties of the spec compiler

`Model.lean` and `Ir.lean` model the compiler, from the description of a match function to C++ text.  `Spec.lean` says
what a description means (`Fn.run`) and which ones the compiler takes (`Fn.accepted`); `Cpp.lean` gives the part of
C++ that is generated, with its text (`CFunc.text`) and its meaning (`CFunc.run`).  The objects, what calls do to
the state, what `nbdl::match` finds and which types objects have are any `World`.
-/
namespace Nbdl.Dsl

/-! ### A world for the examples: it records what is called with what -/

/-- Objects of the examples. -/
inductive Obj where
  | arg (i : Nat)
  | int (i : Int)
  | str (s : Text)
  | code (t : Text)
  | held (o : Obj)
  | elem (o k : Obj)
  | mem (o : Obj) (m : Text)
  | res (i : Nat)
deriving DecidableEq

/-- What matching a store finds. -/
def Obj.at (o : Obj) : Option Obj → Obj
  | none => .held o
  | some k => .elem o k

/-- What is recorded: the calls with their callee and arguments. -/
abbrev Trace := List (Obj × List Obj)

/-- Matching a store finds the object under the key and has no effect, every call is recorded and yields a new
object; numbers are the objects of type `int`, other than zero they are true. -/
def demo : World Trace Obj where
  lit := fun
    | .int i => .int i
    | .str s => .str s
  cexpr := .code
  asConst := id
  matchStore := fun s o k => (s, o.at k)
  get := fun _ o k => o.at k
  member := fun _ o m => .mem o m
  compose := fun s k r _ => (s, r.at k)
  call := fun s f as => (s ++ [(f, as)], .res s.length)
  memberCall := fun s o m as => (s ++ [(.mem o m, as)], .res s.length)
  truth := fun _ o => match o with
    | .res i => i % 2 == 1
    | _ => true
  is := fun o t => match o with
    | .held (.arg 1) => t == "A".toList
    | _ => t == "B".toList

/-! ### C75: the generated function does what its description says -/

/-- No quote, backslash or line end. -/
def plainText (s : Text) : Prop := ∀ c ∈ s, c ≠ '"' ∧ c ≠ '\\' ∧ c ≠ '\n'

theorem unquote_length : ∀ (s t : Text), unquote s = some t → t.length ≤ s.length ∧ (t.length = s.length → plainText s)
  | [], t, h => by
    simp only [unquote, Option.some.injEq] at h
    subst h
    exact ⟨Nat.le_refl _, fun _ c hc => by simp at hc⟩
  | c :: s, t, h => by
    by_cases h1 : c = '"'
    · subst h1; simp [unquote] at h
    by_cases h2 : c = '\n'
    · subst h2; simp [unquote] at h
    by_cases h3 : c = '\\'
    · subst h3
      rcases s with - | ⟨d, s⟩
      · simp [unquote] at h
      · have : ∃ e u, unquote s = some u ∧ t = e :: u := by
          simp only [unquote] at h
          split at h
          · simp at h
          · rename_i e _
            simp only [Option.map_eq_some_iff] at h
            obtain ⟨u, hu, rfl⟩ := h
            exact ⟨e, u, hu, rfl⟩
        obtain ⟨e, u, hu, rfl⟩ := this
        have := (unquote_length s u hu).1
        simp only [List.length_cons]
        exact ⟨by omega, fun hl => by omega⟩
    · have : (unquote s).map (c :: ·) = some t := by
        rw [← h]
        conv => rhs; unfold unquote
        split <;> simp_all
      simp only [Option.map_eq_some_iff] at this
      obtain ⟨u, hu, rfl⟩ := this
      obtain ⟨a, b⟩ := unquote_length s u hu
      simp only [List.length_cons]
      refine ⟨by omega, fun hl d hd => ?_⟩
      rcases List.mem_cons.1 hd with rfl | hd
      · exact ⟨h1, h3, h2⟩
      · exact b (by omega) d hd

theorem unquote_plain : ∀ (s : Text), plainText s → unquote s = some s
  | [], _ => rfl
  | c :: s, h => by
    obtain ⟨h1, h2, h3⟩ := h c (by simp)
    have ih := unquote_plain s fun d hd => h d (by simp [hd])
    unfold unquote
    split <;> simp_all

/-- The strings that mean themselves when put between quotes are those without quote, backslash and line end. -/
theorem string_means_itself_iff (s : Text) : unquote s = some s ↔ plainText s :=
  ⟨fun h => (unquote_length s s h).2 rfl, unquote_plain s⟩

/-- C75.  Every description the compiler takes becomes a C++ function with its name, a parameter for each store and
one for the callback, whose parameters and local names are different identifiers.  Called with any objects in any state in which
the description has a meaning, the function does exactly that: the same calls with the same arguments in the same
order, and the same effects.  `f.ok w` asks that strings hold no quote, backslash or line end, and that the types of
the clauses of a match exclude each other, with `else` last. -/
theorem generated_function_does_what_source_says_partial (f : Fn) (hf : f.accepted = true) :
    ∃ cf : CFunc, compile f = some cf.text ∧ cf.name = f.name ∧ cf.params.length = f.stores + 1 ∧
      ((cf.params ++ stmtsNames cf.body).map Name.text).Nodup ∧
      (∀ x ∈ cf.params ++ stmtsNames cf.body, identifier x.text = true) ∧
      ∀ {σ V : Type} (w : World σ V) (s s' : σ) (args : List V),
        f.ok w → f.run w s args = some s' → cf.run w s args = some s' := by
  rw [← compile_isSome] at hf
  obtain ⟨t, ht⟩ := Option.isSome_iff_exists.1 hf
  obtain ⟨cf, h1, h2⟩ := compile_good f t ht
  exact ⟨cf, by rw [ht, h1], h2.1, h2.2.1, h2.2.2.1, fun x _ => x.text_identifier, h2.2.2.2⟩

/-- A function of two stores: it calls the callback with an element of the first store, then decides by the type of the
second what to do next. -/
def exampleFn : Fn :=
  ⟨"f".toList, 2,
    [.call [.path 0 [.sym ".name".toList, .num 7], .str "hi".toList],
     .matchPath (.var 1)
      [.mk "A".toList 5 [.matchIf (.visit (.sym "test".toList) [.var 5]) [.visit (.sym ".put".toList) [.var 0, .num 1]] [.noop 5]],
       .mk [] 6 [.call [.var 6]]]]⟩

/-- The hypotheses are met: the example is taken, and it has a meaning, with three calls. -/
example : exampleFn.accepted = true := by decide +kernel

example : exampleFn.ok demo := by
  refine ⟨⟨⟨trivial, trivial, trivial⟩, ?_, trivial⟩, ⟨trivial, ?_, ?_⟩, trivial⟩
  · exact (string_means_itself_iff _).2 (by unfold plainText; decide)
  · exact ⟨by decide, by intro u hu hne; simp [Clause.type] at hu; exact absurd hu hne, by decide, by simp, trivial⟩
  · simp [clausesOk, stmtsOk, Stmt.ok, Expr.strOk, exprsStrOk]

example : exampleFn.run demo [] [.arg 0, .arg 1, .arg 2] = some
    [(.arg 2, [.held (.elem (.mem (.held (.arg 0)) "name".toList) (.int 7)), .str "hi".toList]),
     (.code "test".toList, [.held (.arg 1)]),
     (.mem (.arg 0) "put".toList, [.int 1])] := by decide +kernel

/-- In particular a function without strings and without `match` clauses needs no condition. -/
example : (⟨"g".toList, 1, [.call [.path 0 [.num 3]], .call [.var 0, .sym "x".toList]]⟩ : Fn).ok demo := by
  simp [Fn.ok, stmtsOk, Stmt.ok, Expr.strOk, exprsStrOk]

/-- C75 fails for a string with a backslash: the C++ literal has the characters of the string unchanged, so the
callback is called with another string. -/
theorem string_with_backslash_violated : ∃ (f : Fn) (cf : CFunc) (s : Trace), f.accepted = true ∧
    compile f = some cf.text ∧ f.run demo [] [.arg 0] = some s ∧ (cf.run demo [] [.arg 0]).isSome = true ∧
    cf.run demo [] [.arg 0] ≠ some s :=
  ⟨⟨"f".toList, 0, [.call [.str "a\\nb".toList]]⟩,
   ⟨"f".toList, [⟨.arg, 0⟩], [.call none (.name ⟨.arg, 0⟩) [.str "a\\nb".toList]]⟩,
   [(.arg 0, [.str "a\\nb".toList])], by decide +kernel⟩

/-- C75 fails for a string with a quote: the generated code is no C++. -/
theorem string_with_quote_violated : ∃ (f : Fn) (cf : CFunc) (s : Trace), f.accepted = true ∧
    compile f = some cf.text ∧ f.run demo [] [.arg 0] = some s ∧ cf.run demo [] [.arg 0] = none :=
  ⟨⟨"f".toList, 0, [.call [.str "a\"b".toList]]⟩,
   ⟨"f".toList, [⟨.arg, 0⟩], [.call none (.name ⟨.arg, 0⟩) [.str "a\"b".toList]]⟩,
   [(.arg 0, [.str "a\"b".toList])], by decide +kernel⟩

/-- C75 fails if two clauses of a match accept the same type: the compiler takes them, and the generated call is
ambiguous. -/
theorem clauses_of_one_type_violated : ∃ (f : Fn) (cf : CFunc) (s : Trace), f.accepted = true ∧
    compile f = some cf.text ∧ f.run demo [] [.arg 1, .arg 2] = some s ∧ cf.run demo [] [.arg 1, .arg 2] = none :=
  ⟨⟨"f".toList, 1, [.matchPath (.var 0) [.mk "A".toList 5 [.call [.num 1]], .mk "A".toList 5 [.call [.num 2]]]]⟩,
   ⟨"f".toList, [⟨.arg, 0⟩, ⟨.arg, 1⟩],
    [.matchAll (.name ⟨.arg, 0⟩) none
      [.mk "A".toList ⟨.arg, 2⟩ [.call none (.name ⟨.arg, 1⟩) [.int 1]],
       .mk "A".toList ⟨.arg, 3⟩ [.call none (.name ⟨.arg, 1⟩) [.int 2]]]]⟩,
   [(.arg 2, [.int 1])], by decide +kernel⟩

/-! ### C76: which descriptions the compiler takes -/

/-- C76.  The compiler produces code exactly for the descriptions that meet the rules of `Fn.accepted`; for every other
one it stops with an error. -/
theorem compiler_takes_exactly (f : Fn) : (compile f).isSome = f.accepted := compile_isSome f

theorem restAccepted_append (B : Nat → Bool) : ∀ (a b : List Stmt),
    restAccepted B (a ++ b) = (restAccepted B a && restAccepted B b)
  | [], b => by simp [restAccepted]
  | s :: a, b => by simp [restAccepted, restAccepted_append B a b, Bool.and_assoc]

/-- A statement that is accepted neither first nor later makes its block refused. -/
theorem block_refused (B : Nat → Bool) (s : Stmt) (h : ∀ first, s.accepted B first = false) :
    ∀ (pre post : List Stmt), blockAccepted B (pre ++ s :: post) = false
  | [], post => by simp [blockAccepted, h]
  | p :: pre, post => by simp [blockAccepted, restAccepted_append, restAccepted, h]

/-- C76 has a gap: `match-if` may be written without `else`, but such a function is never compiled, wherever the
statement is in the body. -/
theorem match_if_without_else_violated (name : Text) (stores : Nat) (pre post thn : List Stmt) (cond : Expr) :
    compile ⟨name, stores, pre ++ .matchIf cond thn [] :: post⟩ = none := by
  have h := compile_isSome ⟨name, stores, pre ++ .matchIf cond thn [] :: post⟩
  simp only [Fn.accepted] at h
  rw [block_refused _ _ (by intro first; simp [Stmt.accepted, blockAccepted])] at h
  simpa using h

theorem matchCond_refused (B : Nat → Bool) : ∀ (cs : List (Expr × List Stmt)), blockAccepted B (matchCond cs []) = false
  | [] => rfl
  | (c, r) :: cs => by simp [matchCond, blockAccepted, Stmt.accepted, matchCond_refused B cs]

/-- The same for `match-cond` without `else`. -/
theorem match_cond_without_else_violated (name : Text) (stores : Nat) (pre post : List Stmt)
    (cs : List (Expr × List Stmt)) (h : cs ≠ []) :
    compile ⟨name, stores, pre ++ matchCond cs [] ++ post⟩ = none := by
  rcases cs with - | ⟨⟨c, r⟩, cs⟩
  · exact absurd rfl h
  have h := compile_isSome ⟨name, stores, pre ++ .matchIf c r (matchCond cs []) :: post⟩
  simp only [Fn.accepted] at h
  rw [block_refused _ _ (by intro first; simp [Stmt.accepted, matchCond_refused])] at h
  simpa [matchCond] using h

theorem rest_refused (B : Nat → Bool) (s : Stmt) (h : s.accepted B false = false) (p : Stmt) (pre post : List Stmt) :
    blockAccepted B (p :: pre ++ s :: post) = false := by
  simp [blockAccepted, restAccepted_append, restAccepted, h]

/-- A `noop` is refused after another statement. -/
theorem noop_after_statement_violated (name : Text) (stores : Nat) (p : Stmt) (pre post : List Stmt) (x : Nat) :
    compile ⟨name, stores, p :: pre ++ .noop x :: post⟩ = none := by
  have h := compile_isSome ⟨name, stores, p :: pre ++ .noop x :: post⟩
  simp only [Fn.accepted] at h
  rw [rest_refused _ _ (by simp [Stmt.accepted])] at h
  simpa using h

/-- So is a `match-if` whose condition is a plain variable, symbol or literal; one whose condition is a call or a path is
not. -/
theorem plain_condition_after_statement_violated (name : Text) (stores : Nat) (p : Stmt) (pre post thn els : List Stmt)
    (c : Expr) (hc : c.computes = false) :
    compile ⟨name, stores, p :: pre ++ .matchIf c thn els :: post⟩ = none := by
  have h := compile_isSome ⟨name, stores, p :: pre ++ .matchIf c thn els :: post⟩
  simp only [Fn.accepted] at h
  rw [rest_refused _ _ (by simp [Stmt.accepted, hc])] at h
  simpa using h

/-- With a call as condition the same function is compiled, and `noop` is taken as first statement. -/
example : ((compile ⟨"f".toList, 1, [.call [.var 0], .matchIf (.visit (.sym "t".toList) []) [.noop 0] [.call [.num 1]]]⟩).isSome
    && (compile ⟨"f".toList, 1, [.call [.var 0], .matchIf (.var 0) [.noop 0] [.call [.num 1]]]⟩).isNone
    && (compile ⟨"f".toList, 1, [.noop 0, .call [.var 0]]⟩).isSome) = true := by decide +kernel

end Nbdl.Dsl
