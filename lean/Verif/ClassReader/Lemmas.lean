import Verif.ClassReader.Spec
import Verif.Reader.Parse
import Verif.StoreDef.Props
/-!
# Reading back the tokens of a class
-/
namespace Nbdl.ClassReader
open Nbdl.Dsl Nbdl.Reader Nbdl.StoreDef

/-! ### Expecting tokens -/

theorem expect_op (s : String) (r : List Tok) : expect s (op s :: r) = some r := by simp [expect, op]

theorem expect_other {s : String} {t : Tok} (h : t ≠ op s) (r : List Tok) : expect s (t :: r) = none := by
  cases t with
  | op u =>
    have : u ≠ tx s := fun e => h (by rw [e]; rfl)
    simp [expect, this]
  | _ => rfl

theorem expectWord_kw (s : String) (r : List Tok) : expectWord s (kw s :: r) = some r := by simp [expectWord, kw]

theorem expectAll_append : ∀ (ts r : List Tok), expectAll ts (ts ++ r) = some r
  | [], _ => rfl
  | t :: ts, r => by simp [expectAll, expectAll_append ts r]

theorem expectAll_some : ∀ {ts us r : List Tok}, expectAll ts us = some r → us = ts ++ r
  | [], us, r, h => by simpa [expectAll] using h
  | t :: ts, [], r, h => by simp [expectAll] at h
  | t :: ts, u :: us, r, h => by
    simp only [expectAll] at h
    split at h
    · rename_i e
      rw [e, expectAll_some h]; rfl
    · cases h

theorem readWord_plain {w : Text} (h : plainWord w) (r : List Tok) : readWord (.word w :: r) = some (w, r) := by
  simp [readWord, h.2]

/-! ### Arguments -/

/-- The tokens of an argument. -/
def argToks : CArg → List Tok
  | .name x false => [.word x]
  | .name x true => castToks x
  | .int (.ofNat n) => [natTok n]
  | .int (.negSucc n) => [op "-", natTok (n + 1)]
  | .str t => [.str t]
  | .raw t => (lex t).getD []

/-- An argument that can be read among these parameters. -/
def PlainA (params : List Text) : CArg → Prop
  | .name x _ => x ∈ params
  | .int _ => True
  | .str t => plainString t
  | .raw t => t ≠ [] ∧ ∃ ts, lex t = some ts ∧ untok ts = t ∧
      readArgToks [] (ts ++ [op ")"]) = some (ts, [op ")"]) ∧ literal ts = none ∧ ∀ x ∈ params, .word x ∉ ts

theorem lex_cast {x : Text} (h : identifier x = true) : lex (CArg.name x true).text = some (castToks x) := by
  have h1 := whole_word h (t := tx ")") (ts := [op ")"]) rfl rfl
  have h2 := whole_piece (p := tx ")>(") (ps := [op ")", op ">", op "("]) rfl h1
  have h3 := whole_word h (t := tx ")>(" ++ (x ++ tx ")")) rfl h2
  have h4 := whole_piece (p := tx "static_cast<decltype(")
    (ps := [kw "static_cast", op "<", kw "decltype", op "("]) rfl h3
  exact h4.lex

theorem lex_arg {params : List Text} (hp : ∀ x ∈ params, identifier x = true) : ∀ (a : CArg), PlainA params a →
    lex a.text = some (argToks a)
  | .name x false, h => lex_identifier (hp x h)
  | .name x true, h => lex_cast (hp x h)
  | .int (.ofNat n), _ => lex_nat n
  | .int (.negSucc n), _ => lex_expr (.int (.negSucc n)) trivial
  | .str t, h => (whole_str h).lex
  | .raw t, h => by
    obtain ⟨-, ts, h1, -⟩ := h
    simp [CArg.text, argToks, h1]

theorem readArgToks_more {x : Tok} (hx : x = op "," ∨ x = op ")") (r : List Tok) : ∀ (ts stack : List Tok),
    readArgToks stack (ts ++ [op ")"]) = some (ts, [op ")"]) → readArgToks stack (ts ++ x :: r) = some (ts, x :: r)
  | [], stack, h => by
    by_cases hs : stack = []
    · subst hs
      rcases hx with rfl | rfl <;> simp [readArgToks]
    · simp only [List.nil_append, readArgToks, hs, false_and, if_false] at h
      split at h
      · cases h
      · simp at h
  | t :: ts, stack, h => by
    simp only [List.cons_append, readArgToks] at h ⊢
    split at h
    · simp at h
    · rename_i hn
      rw [if_neg hn]
      split at h
      · cases h
      · rename_i s hs
        rw [Option.map_eq_some_iff] at h
        obtain ⟨⟨q1, q2⟩, h1, h2⟩ := h
        simp only [Prod.mk.injEq, List.cons.injEq, true_and] at h2
        obtain ⟨rfl, rfl⟩ := h2
        simp [readArgToks_more hx r q1 s h1]

theorem readArgToks_arg {params : List Text} : ∀ (a : CArg), PlainA params a →
    readArgToks [] (argToks a ++ [op ")"]) = some (argToks a, [op ")"])
  | .name x false, _ => by simp [argToks, readArgToks, nest, op]
  | .name x true, _ => by simp [argToks, castToks, readArgToks, nest, op, kw, tx]
  | .int (.ofNat n), _ => by simp [argToks, natTok, readArgToks, nest, op]
  | .int (.negSucc n), _ => by simp [argToks, natTok, readArgToks, nest, op, tx]
  | .str t, _ => by simp [argToks, readArgToks, nest, op]
  | .raw t, h => by
    obtain ⟨-, ts, h1, -, h2, -⟩ := h
    simpa [argToks, h1] using h2

theorem find_none {params : List Text} {f : Text → List Tok} {ts : List Tok} (h : ∀ x ∈ params, ts ≠ f x) :
    (params.find? fun y => ts = f y) = none := by
  rw [List.find?_eq_none]
  intro x hx
  simpa using h x hx

theorem find_one {params : List Text} {f : Text → List Tok} (hf : ∀ x y, f x = f y → x = y) {x : Text}
    (h : x ∈ params) {ts : List Tok} (ht : ts = f x) : (params.find? fun y => ts = f y) = some x := by
  cases e : params.find? fun y => ts = f y with
  | none =>
    rw [List.find?_eq_none] at e
    exact absurd (by simp [ht]) (e x h)
  | some y =>
    have := List.find?_some e
    simp only [ht, decide_eq_true_eq] at this
    rw [hf _ _ this]

theorem castToks_inj (x y : Text) (h : castToks x = castToks y) : x = y := by
  simpa [castToks] using h

theorem readArg_name {params : List Text} {x : Text} (h : x ∈ params) {ts : List Tok} (ht : ts = [.word x]) :
    readArg params ts = some (.name x false) := by
  have h1 := find_one (f := fun y => [.word y]) (by simp) h ht
  rw [readArg, if_neg (by simp [ht]), h1]

theorem readArg_cast {params : List Text} {x : Text} (h : x ∈ params) {ts : List Tok} (ht : ts = castToks x) :
    readArg params ts = some (.name x true) := by
  have h1 := find_none (params := params) (f := fun y => [.word y]) (ts := ts) fun y _ => by simp [ht, castToks]
  have h2 := find_one castToks_inj h ht
  rw [readArg, if_neg (by simp [ht, castToks]), h1, h2]

theorem readArg_literal {params : List Text} {ts : List Tok} {a : CArg} (h0 : ts ≠ []) (hw : ∀ x, ts ≠ [.word x])
    (hc : ∀ x, ts ≠ castToks x) (h : literal ts = some a) : readArg params ts = some a := by
  have h1 := find_none (params := params) (f := fun y => [.word y]) (ts := ts) fun y _ => hw y
  have h2 := find_none (params := params) (f := castToks) (ts := ts) fun y _ => hc y
  rw [readArg, if_neg h0, h1, h2, h]

theorem readArg_arg {params : List Text} : ∀ (a : CArg), PlainA params a → readArg params (argToks a) = some a
  | .name x false, h => readArg_name h rfl
  | .name x true, h => readArg_cast h rfl
  | .int (.ofNat n), _ => by
    refine readArg_literal (by simp [argToks]) (by simp [argToks, natTok]) (by simp [argToks, castToks]) ?_
    simp only [argToks, literal, natTok, natOf_tok, Option.map_some]
    rfl
  | .int (.negSucc n), _ => by
    refine readArg_literal (by simp [argToks]) (by simp [argToks]) (by simp [argToks, castToks]) ?_
    simp only [argToks, literal, natTok, natOf_tok, op, if_true, Option.map_some]
    rfl
  | .str t, _ => readArg_literal (by simp [argToks]) (by simp [argToks]) (by simp [argToks, castToks]) rfl
  | .raw t, h => by
    obtain ⟨h0, ts, h1, h2, -, h3, h4⟩ := h
    have e : argToks (.raw t) = ts := by simp [argToks, h1]
    have hne : ts ≠ [] := by
      rintro rfl
      exact h0 (by rw [← h2]; rfl)
    have h5 := find_none (params := params) (f := fun y => [.word y]) (ts := ts) fun y hy e => h4 y hy (by simp [e])
    have h6 := find_none (params := params) (f := castToks) (ts := ts) fun y hy e => h4 y hy (by simp [e, castToks])
    have h7 : ¬ ∃ x ∈ params, .word x ∈ ts := fun ⟨x, hx, hw⟩ => h4 x hx hw
    rw [e, readArg, if_neg hne, h5, h6, h3]
    simp only [if_neg h7, h2]

/-- The tokens of arguments with the closing parenthesis. -/
def argsToks : List CArg → List Tok
  | [] => [op ")"]
  | [a] => argToks a ++ [op ")"]
  | a :: b :: as => argToks a ++ (op "," :: argsToks (b :: as))

theorem argToks_ne_nil {params : List Text} (a : CArg) (h : PlainA params a) : argToks a ≠ [] := by
  intro e
  have := readArg_arg a h
  simp [e, readArg] at this

theorem readArgs1_args {params : List Text} : ∀ (as : List CArg), as ≠ [] → (∀ a ∈ as, PlainA params a) →
    ∀ (n : Nat) (r : List Tok), as.length ≤ n → readArgs1 params n (argsToks as ++ r) = some (as, r)
  | [], h, _, _, _, _ => absurd rfl h
  | [a], _, h, n, r, hn => by
    have ha := h a (by simp)
    have h1 := readArgToks_more (x := op ")") (.inr rfl) r _ _ (readArgToks_arg a ha)
    match n, hn with
    | n + 1, _ =>
      simp only [argsToks, List.append_assoc, List.singleton_append, readArgs1, h1, readArg_arg a ha]
      rw [expect_other (by decide), expect_op]
      rfl
  | a :: b :: as, _, h, n, r, hn => by
    have ha := h a (by simp)
    match n, hn with
    | n + 1, hn =>
      have ih := readArgs1_args (b :: as) (by simp) (fun c hc => h c (by simp [hc])) n r (by simpa using hn)
      have h1 := readArgToks_more (x := op ",") (.inl rfl) (argsToks (b :: as) ++ r) _ _ (readArgToks_arg a ha)
      simp only [argsToks, List.append_assoc, List.cons_append, readArgs1, h1, readArg_arg a ha]
      rw [expect_op]
      simp [ih]

theorem argToks_head {params : List Text} (a : CArg) (h : PlainA params a) (r : List Tok) :
    expect ")" (argToks a ++ r) = none := by
  have h1 := readArgToks_arg a h
  cases e : argToks a with
  | nil => exact absurd e (argToks_ne_nil a h)
  | cons t ts =>
    rw [List.cons_append]
    refine expect_other ?_ _
    rintro rfl
    rw [e] at h1
    simp [readArgToks] at h1

theorem readArgs_args {params : List Text} (as : List CArg) (h : ∀ a ∈ as, PlainA params a) (n : Nat) (r : List Tok)
    (hn : as.length ≤ n) : readArgs params n (argsToks as ++ r) = some (as, r) := by
  match as with
  | [] => simp [argsToks, readArgs, expect_op]
  | [a] =>
    have h1 := readArgs1_args [a] (by simp) h n r hn
    rw [readArgs, h1]
    simp [argsToks, argToks_head a (h a (by simp))]
  | a :: b :: as =>
    have h1 := readArgs1_args (a :: b :: as) (by simp) h n r hn
    rw [readArgs, h1]
    simp [argsToks, argToks_head a (h a (by simp))]

theorem whole_args {params : List Text} (hp : ∀ x ∈ params, identifier x = true) : ∀ (as : List CArg),
    (∀ a ∈ as, PlainA params a) → ∀ {t : Text} {ts : List Tok}, Whole t ts →
    Whole (separated (tx ", ") (as.map CArg.text) ++ (tx ")" ++ t)) (argsToks as ++ ts)
  | [], _, t, ts, h => whole_piece (p := tx ")") (ps := [op ")"]) rfl h
  | [a], ha, t, ts, h => by
    have := (lex_arg hp a (ha a (by simp)))
    have := Whole.after this (b := tx ")" ++ t) rfl (whole_piece (ps := [op ")"]) rfl h)
    simpa [separated, argsToks] using this
  | a :: b :: as, ha, t, ts, h => by
    have ih := whole_args hp (b :: as) (fun c hc => ha c (by simp [hc])) h
    have := (lex_arg hp a (ha a (by simp)))
    have := Whole.after this (b := tx ", " ++ (separated (tx ", ") ((b :: as).map CArg.text) ++ (tx ")" ++ t))) rfl
      (whole_piece (ps := [op ","]) rfl ih)
    simpa [separated, argsToks] using this

/-! ### Types -/

theorem readAngles_more (r : List Tok) : ∀ (ts stack a b : List Tok), readAngles stack ts = some (a, b) →
    readAngles stack (ts ++ r) = some (a, b ++ r)
  | [], _, _, _, h => by simp [readAngles] at h
  | t :: ts, stack, a, b, h => by
    simp only [List.cons_append, readAngles] at h ⊢
    split at h
    · cases h
    · simp only [Option.some.injEq, Prod.mk.injEq] at h
      simp [← h.1, ← h.2]
    · rename_i c s hs
      rw [Option.map_eq_some_iff] at h
      obtain ⟨⟨q1, q2⟩, h1, h2⟩ := h
      simp only [Prod.mk.injEq] at h2
      obtain ⟨rfl, rfl⟩ := h2
      simp [readAngles_more r ts (c :: s) q1 q2 h1]

/-- Does not continue a type. -/
def ends (r : List Tok) : Prop := expect "<" r = none ∧ expect "::" r = none

theorem expect_more {s : String} {ts a : List Tok} (r : List Tok) (h : expect s ts = some a) :
    expect s (ts ++ r) = some (a ++ r) := by
  match ts, h with
  | .op u :: ts, h =>
    simp only [expect, List.cons_append] at h ⊢
    split at h
    · rename_i e; simp at h; simp [e, h]
    · cases h

theorem expect_none_more {s : String} {ts : List Tok} (r : List Tok) (h : expect s ts = none) (hr : expect s r = none) :
    expect s (ts ++ r) = none := by
  match ts, h with
  | [], _ => exact hr
  | .op u :: ts, h =>
    simp only [expect, List.cons_append] at h ⊢
    split at h
    · cases h
    · rename_i e; simp [e]
  | .word _ :: _, _ => rfl
  | .num _ :: _, _ => rfl
  | .str _ :: _, _ => rfl

theorem readPart_more {r : List Tok} (hr : ends r) {ts a b : List Tok} (h : readPart ts = some (a, b)) :
    readPart (ts ++ r) = some (a, b ++ r) := by
  match ts, h with
  | .word w :: ts, h =>
    simp only [readPart, List.cons_append] at h ⊢
    split at h
    · cases h
    · rename_i hw
      rw [if_neg hw]
      cases e : expect "<" ts with
      | none =>
        simp only [e, Option.some.injEq, Prod.mk.injEq] at h
        simp [expect_none_more r e hr.1, ← h.1, ← h.2]
      | some u =>
        simp only [e, Option.map_eq_some_iff] at h
        obtain ⟨⟨q1, q2⟩, h1, h2⟩ := h
        simp only [Prod.mk.injEq] at h2
        obtain ⟨rfl, rfl⟩ := h2
        simp [expect_more r e, readAngles_more r _ _ _ _ h1]
  | [], h => simp [readPart] at h
  | .op _ :: _, h => simp [readPart] at h
  | .num _ :: _, h => simp [readPart] at h
  | .str _ :: _, h => simp [readPart] at h

theorem readParts_more {r : List Tok} (hr : ends r) : ∀ (n m : Nat) (ts a b : List Tok), n ≤ m →
    readParts n ts = some (a, b) → readParts m (ts ++ r) = some (a, b ++ r)
  | 0, _, _, _, _, _, h => by simp [readParts] at h
  | n + 1, 0, _, _, _, hm, _ => by omega
  | n + 1, m + 1, ts, a, b, hm, h => by
    simp only [readParts] at h ⊢
    cases e : readPart ts with
    | none => simp [e] at h
    | some q =>
      obtain ⟨q1, q2⟩ := q
      simp only [e] at h
      simp only [readPart_more hr e]
      cases e2 : expect "::" q2 with
      | none =>
        simp only [e2, Option.some.injEq, Prod.mk.injEq] at h
        simp [expect_none_more r e2 hr.2, ← h.1, ← h.2]
      | some u =>
        simp only [e2, Option.map_eq_some_iff] at h
        obtain ⟨⟨p1, p2⟩, h1, h2⟩ := h
        simp only [Prod.mk.injEq] at h2
        obtain ⟨rfl, rfl⟩ := h2
        simp [expect_more r e2, readParts_more hr n m _ _ _ (by omega) h1]

theorem readTypeName_more {r : List Tok} (hr : ends r) {n m : Nat} {ts a b : List Tok} (hm : n ≤ m)
    (h : readTypeName n ts = some (a, b)) : readTypeName m (ts ++ r) = some (a, b ++ r) := by
  simp only [readTypeName] at h ⊢
  cases e : expect "::" ts with
  | none =>
    simp only [e] at h
    simp only [expect_none_more r e hr.2, readParts_more hr n m _ _ _ hm h]
  | some u =>
    simp only [e, Option.map_eq_some_iff] at h
    obtain ⟨⟨p1, p2⟩, h1, h2⟩ := h
    simp only [Prod.mk.injEq] at h2
    obtain ⟨rfl, rfl⟩ := h2
    simp [expect_more r e, readParts_more hr n m _ _ _ hm h1]

/-- The first token of a type. -/
theorem readTypeName_head {n : Nat} {ts a b : List Tok} (h : readTypeName n ts = some (a, b)) :
    (∃ r, ts = op "::" :: r) ∨ ∃ w r, ts = .word w :: r ∧ (w ∈ keywords → w ∈ typeWords) ∧
      (∀ u, r ≠ op "(" :: u ∨ b ≠ []) := by
  simp only [readTypeName] at h
  match ts, h with
  | [], h => cases n <;> simp [expect, readParts, readPart] at h
  | .num _ :: _, h => cases n <;> simp [expect, readParts, readPart] at h
  | .str _ :: _, h => cases n <;> simp [expect, readParts, readPart] at h
  | .op t :: r, h =>
    simp only [expect] at h
    split at h
    · rename_i u e
      split at e
      · rename_i ht; exact .inl ⟨r, by rw [ht]; rfl⟩
      · cases e
    · cases n <;> simp [readParts, readPart] at h
  | .word w :: r, h =>
    refine .inr ⟨w, r, rfl, ?_, ?_⟩
    · intro hk
      cases n with
      | zero => simp [expect, readParts] at h
      | succ n =>
        by_cases hw : w ∈ typeWords
        · exact hw
        · simp [expect, readParts, readPart, hk, hw] at h
    · intro u
      by_cases hr : r = op "(" :: u
      · subst hr
        right
        rintro rfl
        cases n with
        | zero => simp [expect, readParts] at h
        | succ n =>
          by_cases hk : w ∈ keywords ∧ w ∉ typeWords
          · simp [expect, readParts, readPart, hk] at h
          · have h1 : expect "<" (op "(" :: u) = none := expect_other (by decide) _
            have h2 : expect "::" (op "(" :: u) = none := expect_other (by decide) _
            simp [expect.eq_2, readParts, readPart, hk, h1, h2] at h
      · exact .inl hr

end Nbdl.ClassReader
