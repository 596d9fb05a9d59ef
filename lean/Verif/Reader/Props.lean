import Verif.Reader.Plain
import Verif.Dsl.Props
/-!
# C112: the generated text, read as C++, is the function described
-/
namespace Nbdl.Reader
open Nbdl.Dsl

/-- C112.  For every description the compiler takes, if its symbols are (qualified) names, its strings hold no quote,
backslash or line end, and nothing calls a number or a member of a number (`plainFn`), the generated text is a C++
function: read as C++ it is a function with the name described, a parameter for each store and one for the callback,
which does what the description says. -/
theorem generated_text_reads_as_described_partial (f : Fn) (hf : f.accepted = true) (hp : plainFn f) :
    ∃ (t : Text) (cf : CFunc), compile f = some t ∧ readFunc t = some cf ∧ cf.name = f.name ∧
      cf.params.length = f.stores + 1 ∧ ((cf.params ++ stmtsNames cf.body).map Name.text).Nodup ∧
      ∀ {σ V : Type} (w : World σ V) (s s' : σ) (args : List V),
        f.ok w → f.run w s args = some s' → cf.run w s args = some s' := by
  rw [← compile_isSome] at hf
  obtain ⟨t, ht⟩ := Option.isSome_iff_exists.1 hf
  obtain ⟨fn, cf, h1, h2, rfl⟩ := compile_tree f t ht
  obtain ⟨g1, g2, g3, g4⟩ := tree_good f fn cf h1 h2
  exact ⟨cf.text, cf, ht, readFunc_text cf (plain_func f hp fn cf h1 h2), g1, g2, g3, g4⟩

/-- C112.  So two descriptions with the same text do the same wherever both have a meaning. -/
theorem same_text_same_meaning_partial (f g : Fn) (hf : f.accepted = true) (hg : g.accepted = true)
    (hpf : plainFn f) (hpg : plainFn g) (h : compile f = compile g)
    {σ V : Type} (w : World σ V) (s s1 s2 : σ) (args : List V) (of : f.ok w) (og : g.ok w)
    (h1 : f.run w s args = some s1) (h2 : g.run w s args = some s2) : s1 = s2 := by
  obtain ⟨t, cf, a1, a2, -, -, -, a3⟩ := generated_text_reads_as_described_partial f hf hpf
  obtain ⟨u, cg, b1, b2, -, -, -, b3⟩ := generated_text_reads_as_described_partial g hg hpg
  rw [a1, b1, Option.some.injEq] at h
  subst h
  rw [a2, Option.some.injEq] at b2
  subst b2
  have e1 := a3 w s s1 args of h1
  have e2 := b3 w s s2 args og h2
  rw [e1] at e2
  exact Option.some.inj e2

/-! ### The hypotheses are met -/

theorem plain_name {w : Text} (h : identifier w = true) (hk : w ∉ keywords) (hn : nameOf w = none) : plainSymbol w := by
  refine ⟨false, w, [], ⟨h, hk⟩, by simp, by simp [separated], fun _ _ => hn, ?_, ?_⟩ <;>
  · intro e
    rw [e] at h
    revert h
    decide

example : plainFn exampleFn := by
  have h1 : plainSymbol (tx "test") := plain_name (by decide) (by decide) (by decide +kernel)
  have h2 : plainWord (tx "name") := ⟨by decide, by decide⟩
  have h3 : plainWord (tx "put") := ⟨by decide, by decide⟩
  have h4 : plainType (tx "A") := .inr ⟨[.word (tx "A")], by decide, by decide, by decide⟩
  have h5 : plainString (tx "hi") := by unfold plainString; decide
  refine ⟨⟨by decide, by decide⟩, ?_⟩
  simp only [exampleFn, plainStmts, plainStmt, plainExprs, plainExpr, plainClauses]
  refine ⟨⟨⟨h2, trivial, trivial⟩, h5, trivial⟩, ⟨trivial, ⟨h4, ⟨⟨⟨h1, ⟨trivial, trivial⟩, ?_, ?_⟩, ⟨⟨h3, ⟨trivial, trivial, trivial⟩, ?_, ?_⟩, trivial⟩, trivial, trivial⟩,
    trivial⟩, .inl rfl, ⟨⟨trivial, trivial⟩, trivial⟩, trivial⟩⟩, trivial⟩ <;> simp

/-- The text of the example is read back, and what is read makes the three calls. -/
example : (((compile exampleFn).bind readFunc).bind fun cf => cf.run demo [] [.arg 0, .arg 1, .arg 2]) = some
    [(.arg 2, [.held (.elem (.mem (.held (.arg 0)) "name".toList) (.int 7)), .str "hi".toList]),
     (.code "test".toList, [.held (.arg 1)]),
     (.mem (.arg 0) "put".toList, [.int 1])] := by decide +kernel

/-- A qualified symbol and a type with template arguments are plain. -/
example : plainSymbol (tx "::app::pick") ∧ plainType (tx "std::vector<std::pair<int,unsigned long>>") := by
  refine ⟨⟨true, tx "app", [tx "pick"], ⟨by decide, by decide⟩, ?_, by decide, by simp, by decide, by decide⟩, .inr ⟨_, rfl, ?_, ?_⟩⟩
  · intro v hv
    simp only [List.mem_singleton] at hv
    subst hv
    exact ⟨by decide, by decide⟩
  · decide +kernel
  · decide +kernel

/-! ### Where it fails -/

/-- C112 fails without the condition on symbols: the made-up names of parameters are not kept apart from the symbols of
the description.  A call of the symbol `arg_0` has the same text as a call of the first store. -/
theorem symbol_captured_violated : ∃ (f g : Fn) (s1 s2 : Trace), f.accepted = true ∧ g.accepted = true ∧
    (compile f).isSome = true ∧ compile f = compile g ∧ f.run demo [] [.arg 0, .arg 1] = some s1 ∧
    g.run demo [] [.arg 0, .arg 1] = some s2 ∧ s1 ≠ s2 :=
  ⟨⟨"f".toList, 1, [.visit (.sym "arg_0".toList) []]⟩, ⟨"f".toList, 1, [.visit (.var 0) []]⟩,
   [(.code "arg_0".toList, [])], [(.arg 0, [])], by decide +kernel⟩

/-- C112 fails if a member of a number is called: `5.put(` begins with the single token `5.put`, so the generated text is
no C++. -/
theorem member_of_number_violated : ∃ (f : Fn) (t : Text) (s : Trace), f.accepted = true ∧ compile f = some t ∧
    f.run demo [] [.arg 0] = some s ∧ readFunc t = none ∧ lex (tx "5.put(") = some [.num (tx "5.put"), .op (tx "(")] :=
  ⟨⟨"f".toList, 0, [.visit (.sym ".put".toList) [.num 5, .num 1]]⟩, tx "void f(auto&& arg_0){\n5.put(1);\n}",
   [(.mem (.int 5) "put".toList, [.int 1])], by decide +kernel⟩

/-- C112 fails for a string with a quote: the text has other tokens than were meant, and is no C++. -/
theorem quote_in_text_violated : ∃ (f : Fn) (t : Text) (s : Trace), f.accepted = true ∧ compile f = some t ∧
    f.run demo [] [.arg 0] = some s ∧ readFunc t = none :=
  ⟨⟨"f".toList, 0, [.call [.str "a\"b".toList]]⟩, tx "void f(auto&& arg_0){\narg_0(\"a\"b\");\n}",
   [(.arg 0, [.str "a\"b".toList])], by decide +kernel⟩

/-- C112 fails for a string with quotes in another way: the text is C++, but it makes a call that is not in the
description. -/
theorem string_adds_call_violated : ∃ (f : Fn) (t : Text) (s s' : Trace), f.accepted = true ∧
    compile f = some t ∧ f.run demo [] [.arg 0] = some s ∧
    ((readFunc t).bind fun cf => cf.run demo [] [.arg 0]) = some s' ∧ s.length = 1 ∧ s'.length = 2 :=
  ⟨⟨"f".toList, 0, [.call [.str "a\");arg_0(\"b".toList]]⟩,
   tx "void f(auto&& arg_0){\narg_0(\"a\");arg_0(\"b\");\n}",
   [(.arg 0, [.str "a\");arg_0(\"b".toList])], [(.arg 0, [.str (tx "a")]), (.arg 0, [.str (tx "b")])],
   by decide +kernel⟩

end Nbdl.Reader
