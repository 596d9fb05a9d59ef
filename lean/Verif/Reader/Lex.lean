import Verif.Reader.Spec
import Verif.Dsl.Whole
/-!
# From text to tokens
-/
namespace Nbdl.Reader
open Nbdl.Dsl

/-- The text is made of whole tokens. -/
def Whole (t : Text) (ts : List Tok) : Prop := run .idle t = some (ts, .idle)

theorem run_append : ∀ (a b : Text) (s : Lex), run s (a ++ b) =
    match run s a with
    | none => none
    | some (ts, s') => (run s' b).map fun r => (ts ++ r.1, r.2)
  | [], b, s => by
    simp only [List.nil_append, run]
    cases run s b <;> simp
  | c :: a, b, s => by
    simp only [List.cons_append, run]
    cases step s c with
    | none => rfl
    | some p =>
      obtain ⟨ts, s1⟩ := p
      simp only [run_append a b s1]
      cases run s1 a with
      | none => rfl
      | some q =>
        obtain ⟨us, s2⟩ := q
        simp only
        cases run s2 b <;> simp

theorem Whole.append {a b : Text} {as bs : List Tok} (ha : Whole a as) (hb : Whole b bs) :
    Whole (a ++ b) (as ++ bs) := by
  unfold Whole at *
  rw [run_append, ha]
  simp [hb]

/-- Ends every token but strings. -/
def stops (c : Char) : Bool := !wordChar c && c != '.' && c != ':' && c != '&' && c != '"'

/-- Begins with such a character. -/
def startsStop : Text → Bool
  | [] => false
  | c :: _ => stops c

theorem step_stop (s : Lex) (f : List Tok) (hf : flush s = some f) (c : Char) (hc : stops c = true) :
    step s c = (stepIdle c).map fun r => (f ++ r.1, r.2) := by
  simp only [stops, Bool.and_eq_true, Bool.not_eq_true', bne_iff_ne, ne_eq] at hc
  obtain ⟨⟨⟨⟨h1, h2⟩, h3⟩, h4⟩, h5⟩ := hc
  have hd : c.isDigit = false := by
    rw [wordChar, Bool.or_eq_false_iff, Char.isAlphanum, Bool.or_eq_false_iff] at h1
    exact h1.1.2
  cases s with
  | idle => simp only [flush, Option.some.injEq] at hf; subst hf; simp [step]
  | word w => simp only [flush, Option.some.injEq] at hf; subst hf; simp [step, h1, h5, after]
  | num w => simp only [flush, Option.some.injEq] at hf; subst hf; simp [step, h1, h2, after]
  | str w => simp [flush] at hf
  | esc w => simp [flush] at hf
  | colon => simp only [flush, Option.some.injEq] at hf; subst hf; simp [step, h3, after]
  | amp => simp only [flush, Option.some.injEq] at hf; subst hf; simp [step, h4, after]
  | dot => simp only [flush, Option.some.injEq] at hf; subst hf; simp [step, hd, after]

theorem Whole.after {a b : Text} {as bs : List Tok} (ha : lex a = some as) (hs : startsStop b = true)
    (hb : Whole b bs) : Whole (a ++ b) (as ++ bs) := by
  unfold Whole at *
  rw [run_append]
  unfold lex at ha
  cases hr : run .idle a with
  | none => simp [hr] at ha
  | some p =>
    obtain ⟨ts, s⟩ := p
    simp only [hr, Option.map_eq_some_iff] at ha ⊢
    obtain ⟨f, hf, rfl⟩ := ha
    cases b with
    | nil => simp [startsStop] at hs
    | cons c b =>
      simp only [run, step_stop s f hf c hs] at hb ⊢
      simp only [show step .idle c = stepIdle c from rfl] at hb
      cases hc : stepIdle c with
      | none => simp [hc] at hb
      | some q =>
        obtain ⟨us, s2⟩ := q
        simp only [hc, Option.map_some] at hb ⊢
        cases hq : run s2 b with
        | none => simp [hq] at hb
        | some v =>
          obtain ⟨vs, s3⟩ := v
          simp only [hq, Option.some.injEq, Prod.mk.injEq] at hb ⊢
          obtain ⟨rfl, rfl⟩ := hb
          simp

theorem lex_whole_append {a b : Text} {as bs : List Tok} (ha : Whole a as) (hb : lex b = some bs) :
    lex (a ++ b) = some (as ++ bs) := by
  unfold Whole at ha
  unfold lex at hb ⊢
  rw [run_append, ha]
  simp only
  cases hr : run .idle b with
  | none => rw [hr] at hb; cases hb
  | some p =>
    obtain ⟨ts, s⟩ := p
    rw [hr] at hb
    simp only [Option.map_eq_some_iff] at hb
    obtain ⟨f, hf, rfl⟩ := hb
    simp [hf]

theorem Whole.lex {a : Text} {as : List Tok} (h : Whole a as) : lex a = some as := by
  unfold Whole at h
  simp [Reader.lex, h, flush]

/-! ### Words and numbers -/

theorem run_word : ∀ (cs w : Text), cs.all wordChar = true → run (.word w) cs = some ([], .word (w ++ cs))
  | [], w, _ => by simp [run]
  | c :: cs, w, h => by
    simp only [List.all_cons, Bool.and_eq_true] at h
    have := run_word cs (w ++ [c]) h.2
    simp [run, step, h.1, this]

theorem run_identifier {w : Text} (h : identifier w = true) : run .idle w = some ([], .word w) := by
  cases w with
  | nil => simp [identifier] at h
  | cons c cs =>
    simp only [identifier, Bool.and_eq_true] at h
    have h1 : wordStart c = true := h.1
    have h2 : cs.all wordChar = true := h.2
    simp [run, step, stepIdle, h1, run_word cs [c] h2]

theorem lex_identifier {w : Text} (h : identifier w = true) : lex w = some [.word w] := by
  simp [lex, run_identifier h, flush]

theorem run_num : ∀ (cs w : Text), cs.all Char.isDigit = true → run (.num w) cs = some ([], .num (w ++ cs))
  | [], w, _ => by simp [run]
  | c :: cs, w, h => by
    simp only [List.all_cons, Bool.and_eq_true] at h
    have := run_num cs (w ++ [c]) h.2
    have hw : wordChar c = true := by simp [wordChar, Char.isAlphanum, h.1]
    simp [run, step, hw, this]

theorem wordStart_digit {c : Char} (h : c.isDigit = true) : wordStart c = false := by
  rw [Char.isDigit] at h
  simp only [Bool.and_eq_true, decide_eq_true_eq, ge_iff_le] at h
  have h1 : c.val ≤ 57 := h.2
  rw [UInt32.le_iff_toNat_le] at h1
  have e : (57 : UInt32).toNat = 57 := rfl
  rw [e] at h1
  have hu : c.isUpper = false := by
    cases hc : c.isUpper with
    | false => rfl
    | true =>
      rw [Char.isUpper] at hc
      simp only [ge_iff_le, Bool.and_eq_true, decide_eq_true_eq] at hc
      have h2 : (65 : UInt32) ≤ c.val := hc.1
      rw [UInt32.le_iff_toNat_le] at h2
      have e : (65 : UInt32).toNat = 65 := rfl
      omega
  have hl : c.isLower = false := by
    cases hc : c.isLower with
    | false => rfl
    | true =>
      rw [Char.isLower] at hc
      simp only [ge_iff_le, Bool.and_eq_true, decide_eq_true_eq] at hc
      have h2 : (97 : UInt32) ≤ c.val := hc.1
      rw [UInt32.le_iff_toNat_le] at h2
      have e : (97 : UInt32).toNat = 97 := rfl
      omega
  have h_ : (c == '_') = false := by
    rw [beq_eq_false_iff_ne]
    rintro rfl
    revert h1
    decide
  simp [wordStart, Char.isAlpha, hu, hl, h_]

theorem digits_ne_nil (n : Nat) : Nat.toDigits 10 n ≠ [] := by
  intro h
  have := congrArg List.length h
  have h2 := Nat.length_toDigits_pos (b := 10) (n := n)
  simp at this

theorem digits_all (n : Nat) : (Nat.toDigits 10 n).all Char.isDigit = true := by
  rw [List.all_eq_true]
  intro c hc
  exact Nat.isDigit_of_mem_toDigits (by omega) (by omega) hc

theorem lex_digits {w : Text} (h0 : w ≠ []) (h : w.all Char.isDigit = true) : lex w = some [.num w] := by
  cases w with
  | nil => exact absurd rfl h0
  | cons c cs =>
    simp only [List.all_cons, Bool.and_eq_true] at h
    simp [lex, run, step, stepIdle, wordStart_digit h.1, h.1, run_num cs [c] h.2, flush]

/-! ### Expressions -/

/-- The tokens of digits. -/
def natTok (n : Nat) : Tok := .num (toString n).toList

/-- The tokens of an expression; those of a symbol are what it is read as. -/
def exprToks : CExpr → List Tok
  | .name x => [.word x.text]
  | .int (.ofNat n) => [natTok n]
  | .int (.negSucc n) => [.op (tx "-"), natTok (n + 1)]
  | .str t => [.str t]
  | .raw t => (lex t).getD []
  | .asConst _ => []

/-- The tokens of a symbol. -/
def symToks (lead : Bool) (w : Text) (ws : List Text) : List Tok :=
  (if lead then [.op (tx "::")] else []) ++ (.word w :: ws.flatMap fun v => [.op (tx "::"), .word v])

theorem lex_nat (n : Nat) : lex (toString n).toList = some [natTok n] := by
  rw [natTok, toString_toList]
  exact lex_digits (digits_ne_nil n) (digits_all n)

theorem run_str : ∀ (s w : Text), plainString s → run (.str w) (s ++ ['"']) = some ([.str (w ++ s)], .idle)
  | [], w, _ => by simp [run, step]
  | c :: s, w, h => by
    obtain ⟨h1, h2, h3⟩ := h c (by simp)
    have := run_str s (w ++ [c]) fun d hd => h d (by simp [hd])
    simp [run, step, h1, h2, h3, this]

theorem whole_str {s : Text} (h : plainString s) : Whole ('"' :: s ++ ['"']) [.str s] := by
  have := run_str s [] h
  unfold Whole
  simp only [List.cons_append, run, step]
  rw [show stepIdle '"' = some ([], .str []) from rfl]
  simp [this]

theorem run_qualified : ∀ (ws : List Text) (w : Text), (∀ v ∈ ws, identifier v = true) →
    ∃ out st f, run (.word w) (ws.flatMap fun v => tx "::" ++ v) = some (out, st) ∧ flush st = some f ∧
      out ++ f = .word w :: ws.flatMap fun v => [.op (tx "::"), .word v]
  | [], w, _ => ⟨[], .word w, [.word w], rfl, rfl, rfl⟩
  | v :: ws, w, h => by
    obtain ⟨out, st, f, h1, h2, h3⟩ := run_qualified ws v fun u hu => h u (by simp [hu])
    refine ⟨.word w :: .op (tx "::") :: out, st, f, ?_, h2, by simp [h3]⟩
    have hv := run_identifier (h v (by simp))
    rw [List.flatMap_cons, List.append_assoc, run_append]
    have : run (.word w) (tx "::") = some ([.word w, .op (tx "::")], .idle) := rfl
    simp only [this, run_append, hv, h1]
    rfl

theorem separated_flatMap (sep : Text) : ∀ (w : Text) (ws : List Text),
    separated sep (w :: ws) = w ++ ws.flatMap fun v => sep ++ v
  | w, [] => by simp [separated]
  | w, v :: ws => by simp [separated, separated_flatMap sep v ws]

theorem lex_symbol (lead : Bool) (w : Text) (ws : List Text) (hw : identifier w = true)
    (hws : ∀ v ∈ ws, identifier v = true) :
    lex ((if lead then tx "::" else []) ++ separated (tx "::") (w :: ws)) = some (symToks lead w ws) := by
  rw [separated_flatMap]
  obtain ⟨out, st, f, h1, h2, h3⟩ := run_qualified ws w hws
  have key : run .idle (w ++ ws.flatMap fun v => tx "::" ++ v) = some (out, st) := by
    rw [run_append, run_identifier hw]
    simp [h1]
  cases lead with
  | false =>
    simp [lex, key, h2, h3, symToks]
  | true =>
    have : run .idle (tx "::") = some ([.op (tx "::")], .idle) := rfl
    simp [lex, run_append, this, h1, run_identifier hw, h2, h3, symToks]

/-- An expression whose text can be read. -/
def PlainE : CExpr → Prop
  | .name _ => True
  | .int _ => True
  | .str s => plainString s
  | .raw t => plainSymbol t
  | .asConst _ => False

theorem lex_expr : ∀ (e : CExpr), PlainE e → lex e.text = some (exprToks e)
  | .name x, _ => lex_identifier x.text_identifier
  | .int (.ofNat n), _ => lex_nat n
  | .int (.negSucc n), _ => by
    have h : Whole (tx "-") [.op (tx "-")] := rfl
    have ht : (CExpr.int (.negSucc n)).text = tx "-" ++ (toString (n + 1)).toList := by
      show (toString (Int.negSucc n)).toList = _
      have : toString (Int.negSucc n) = "-" ++ toString (n + 1) := rfl
      rw [this, String.toList_append]; rfl
    rw [ht]
    exact lex_whole_append h (lex_nat (n + 1))
  | .str s, h => (whole_str h).lex
  | .raw t, h => by
    obtain ⟨lead, w, ws, hw, hws, rfl, -⟩ := h
    have := lex_symbol lead w ws hw.1 fun v hv => (hws v hv).1
    simp only [CExpr.text, exprToks, this, Option.getD_some]
  | .asConst _, h => h.elim

theorem exprToks_raw {t : Text} {lead : Bool} {w : Text} {ws : List Text} (hw : plainWord w)
    (hws : ∀ v ∈ ws, plainWord v)
    (ht : t = (if lead then tx "::" else []) ++ separated (tx "::") (w :: ws)) :
    exprToks (.raw t) = symToks lead w ws := by
  have := lex_symbol lead w ws hw.1 fun v hv => (hws v hv).1
  rw [ht]
  simp only [exprToks, this, Option.getD_some]

theorem exprToks_ne_nil : ∀ (e : CExpr), PlainE e → exprToks e ≠ []
  | .name x, _ => by simp [exprToks]
  | .int (.ofNat n), _ => by simp [exprToks]
  | .int (.negSucc n), _ => by simp [exprToks]
  | .str s, h => by simp [exprToks]
  | .raw t, h => by
    obtain ⟨lead, w, ws, hw, hws, ht, -⟩ := h
    rw [exprToks_raw hw hws ht]
    simp [symToks]
  | .asConst _, h => h.elim

end Nbdl.Reader
