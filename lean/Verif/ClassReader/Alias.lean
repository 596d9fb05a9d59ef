import Verif.ClassReader.Class
/-!
# Reading back the text of an alias
-/
namespace Nbdl.ClassReader
open Nbdl.Dsl Nbdl.Reader Nbdl.StoreDef

/-! ### Types inside of template arguments -/

/-- Tokens in which all brackets nest. -/
def Bal (a : List Tok) : Prop := ∀ (E : List Tok), E ≠ [] → ∀ r,
  readAngles E (a ++ r) = (readAngles E r).map fun q => (a ++ q.1, q.2)

theorem Bal.append {a b : List Tok} (ha : Bal a) (hb : Bal b) : Bal (a ++ b) := fun E hE r => by
  rw [List.append_assoc, ha E hE, hb E hE]
  cases readAngles E r <;> simp

theorem Bal.one {t : Tok} (h : ∀ E : List Tok, E ≠ [] → nest true E t = some E) : Bal [t] := fun E hE r => by
  rw [List.singleton_append, readAngles, h E hE]
  cases E with
  | nil => exact absurd rfl hE
  | cons c E => simp

theorem Bal.word (w : Text) : Bal [.word w] := Bal.one fun E _ => by simp [nest, op]

theorem Bal.colons : Bal [op "::"] := Bal.one fun E _ => by simp [nest, op, tx]

theorem Bal.comma : Bal [op ","] := Bal.one fun E _ => by simp [nest, op, tx]

theorem nest_more {s s' : List Tok} {t : Tok} (hs : s ≠ []) (E : List Tok) (h : nest true s t = some s') :
    nest true (s ++ E) t = some (s' ++ E) := by
  cases s with
  | nil => exact absurd rfl hs
  | cons c s =>
    unfold nest at h ⊢
    repeat' split at h
    all_goals first
      | (simp only [Option.some.injEq] at h; subst h; simp_all; done)
      | simp_all

theorem readAngles_deep (E : List Tok) (hE : E ≠ []) (r : List Tok) : ∀ (ts s a b : List Tok), s ≠ [] →
    readAngles s ts = some (a, b) → readAngles (s ++ E) (a ++ r) = (readAngles E r).map fun q => (a ++ q.1, q.2)
  | [], _, _, _, _, h => by simp [readAngles] at h
  | t :: ts, s, a, b, hs, h => by
    simp only [readAngles] at h
    split at h
    · cases h
    · rename_i hn
      simp only [Option.some.injEq, Prod.mk.injEq] at h
      obtain ⟨rfl, rfl⟩ := h
      have := nest_more hs E hn
      simp only [List.nil_append] at this
      rw [List.singleton_append, readAngles, this]
      cases E with
      | nil => exact absurd rfl hE
      | cons c E => simp
    · rename_i c s' hn
      rw [Option.map_eq_some_iff] at h
      obtain ⟨⟨q1, q2⟩, h1, h2⟩ := h
      simp only [Prod.mk.injEq] at h2
      obtain ⟨rfl, rfl⟩ := h2
      have := nest_more hs E hn
      rw [List.cons_append, readAngles, this]
      have ih := readAngles_deep E hE r ts (c :: s') q1 q2 (by simp) h1
      simp only [List.cons_append] at ih ⊢
      rw [ih]
      cases readAngles E r <;> simp

theorem Bal.angles {ts a b : List Tok} (h : readAngles [op ">"] ts = some (a, b)) : Bal (op "<" :: a) := fun E hE r => by
  have h1 : nest true E (op "<") = some (op ">" :: E) := by simp [nest, op, tx]
  have := readAngles_deep E hE r ts [op ">"] a b (by simp) h
  rw [List.cons_append, readAngles, h1]
  simp only [List.cons_append, List.nil_append] at this ⊢
  rw [this]
  cases readAngles E r <;> simp

theorem Bal.part {ts a b : List Tok} (h : readPart ts = some (a, b)) : Bal a := by
  match ts, h with
  | .word w :: ts, h =>
    simp only [readPart] at h
    split at h
    · cases h
    · split at h
      · rw [Option.map_eq_some_iff] at h
        obtain ⟨⟨q1, q2⟩, h1, h2⟩ := h
        simp only [Prod.mk.injEq] at h2
        obtain ⟨rfl, rfl⟩ := h2
        exact (Bal.word w).append (Bal.angles h1)
      · simp only [Option.some.injEq, Prod.mk.injEq] at h
        rw [← h.1]
        exact Bal.word w
  | [], h => simp [readPart] at h
  | .op _ :: _, h => simp [readPart] at h
  | .num _ :: _, h => simp [readPart] at h
  | .str _ :: _, h => simp [readPart] at h

theorem Bal.parts : ∀ (n : Nat) (ts a b : List Tok), readParts n ts = some (a, b) → Bal a
  | 0, _, _, _, h => by simp [readParts] at h
  | n + 1, ts, a, b, h => by
    simp only [readParts] at h
    split at h
    · cases h
    · rename_i a' r' e
      split at h
      · rw [Option.map_eq_some_iff] at h
        obtain ⟨⟨q1, q2⟩, h1, h2⟩ := h
        simp only [Prod.mk.injEq] at h2
        obtain ⟨rfl, rfl⟩ := h2
        exact (Bal.part e).append (Bal.colons.append (Bal.parts n _ _ _ h1))
      · simp only [Option.some.injEq, Prod.mk.injEq] at h
        rw [← h.1]
        exact Bal.part e

theorem Bal.type {n : Nat} {ts a b : List Tok} (h : readTypeName n ts = some (a, b)) : Bal a := by
  simp only [readTypeName] at h
  split at h
  · rw [Option.map_eq_some_iff] at h
    obtain ⟨⟨q1, q2⟩, h1, h2⟩ := h
    simp only [Prod.mk.injEq] at h2
    obtain ⟨rfl, rfl⟩ := h2
    exact Bal.colons.append (Bal.parts _ _ _ _ h1)
  · exact Bal.parts _ _ _ _ h

/-! ### The types of stores -/

/-- The text is a type with these tokens. -/
def IsType (t : Text) (ts : List Tok) : Prop := lex t = some ts ∧ readTypeName ts.length ts = some (ts, [])

theorem isType_variant {us : List Tok} {t : Text} (h : Whole (t ++ (tx ">" ++ [])) (us ++ [op ">"])) (hb : Bal us) :
    IsType (tx "::nbdl::variant_holder<" ++ (t ++ tx ">"))
      ([op "::", kw "nbdl", op "::", kw "variant_holder", op "<"] ++ (us ++ [op ">"])) := by
  have h1 := whole_piece (p := tx "::nbdl::variant_holder<")
    (ps := [op "::", kw "nbdl", op "::", kw "variant_holder", op "<"]) rfl h
  have h2 : readAngles [op ">"] (us ++ [op ">"]) = some (us ++ [op ">"], []) := by
    rw [hb _ (by simp)]
    rfl
  refine ⟨by simpa using h1.lex, ?_⟩
  have h3 : readPart (kw "variant_holder" :: op "<" :: (us ++ [op ">"])) =
      some (kw "variant_holder" :: op "<" :: (us ++ [op ">"]), []) := by
    rw [kw, readPart, if_neg (by decide), expect_op]
    simp [h2]
  have h4 : readPart (kw "nbdl" :: op "::" :: kw "variant_holder" :: op "<" :: (us ++ [op ">"])) =
      some ([kw "nbdl"], op "::" :: kw "variant_holder" :: op "<" :: (us ++ [op ">"])) := by
    rw [kw, readPart, if_neg (by decide), expect_other (by decide)]
  simp only [List.cons_append, List.nil_append, readTypeName, expect_op, List.length_cons, readParts, h4, h3,
    Option.map_some]
  rfl

mutual
theorem store_type : ∀ (s : Store), plainStore s → ∃ ts, IsType s.cppType ts
  | .store t es, h => by
    obtain ⟨ts, h1, -, h3⟩ := h
    exact ⟨ts, h1, h3⟩
  | .variant s ss, h => by
    obtain ⟨vs, hv⟩ := store_type s h.1
    obtain ⟨us, h1, h2⟩ := store_types ss h.2 hv
    exact ⟨_, isType_variant h1 h2⟩
  | .param i, h => h.elim
theorem store_types : ∀ (ss : List Store), plainStores ss → ∀ {x : Text} {vs : List Tok}, IsType x vs →
    ∃ us, Whole (separated (tx ", ") (x :: cppTypes ss) ++ (tx ">" ++ [])) (us ++ [op ">"]) ∧ Bal us
  | [], _, x, vs, hx => by
    refine ⟨vs, ?_, Bal.type hx.2⟩
    exact Whole.after hx.1 (b := tx ">" ++ []) rfl (whole_piece (ps := [op ">"]) (ts := []) rfl rfl)
  | s :: ss, hs, x, vs, hx => by
    obtain ⟨us, hu⟩ := store_type s hs.1
    obtain ⟨vs', h3, h4⟩ := store_types ss hs.2 hu
    refine ⟨vs ++ ([op ","] ++ vs'), ?_, (Bal.type hx.2).append (Bal.comma.append h4)⟩
    have := Whole.after hx.1 (b := tx ", " ++ _) rfl (whole_piece (p := tx ", ") (ps := [op ","]) rfl h3)
    simpa [cppTypes, separated] using this
end

/-! ### Aliases and tags -/

theorem readDecl_alias {name type : Text} {ts : List Tok} (hn : plainWord name) (ht : IsType type ts) :
    readDecl (aliasText name type) = some (.alias name ts) := by
  obtain ⟨h1, h2⟩ := ht
  let e2 := [op ">", op ";", kw "using", kw "Base", op "::", kw "Base", op ";",
           kw "using", kw "Base", op "::", kw "operator", op "=", op ";", op "}", op ";"]
  let e1 := [op ">", op "{", kw "public", op ":", kw "using", kw "Base", op "="] ++ (strongToks ++ (ts ++ e2))
  have w1 := Whole.after h1 (b := tx ">;\n" ++ (tx "using Base::Base;\n" ++ (tx "using Base::operator=;\n" ++ tx "};\n")))
    (bs := e2) rfl rfl
  have w2 := whole_piece (p := tx "> {\npublic:\n" ++ tx "using Base = nbdl::strong_alias<")
    (ps := [op ">", op "{", kw "public", op ":", kw "using", kw "Base", op "="] ++ strongToks) rfl w1
  have w3 := Whole.after h1 (b := (tx "> {\npublic:\n" ++ tx "using Base = nbdl::strong_alias<") ++ _) rfl w2
  have w4 := whole_word hn.1 (t := tx " : public nbdl::strong_alias<" ++ _) rfl
    (whole_piece (p := tx " : public nbdl::strong_alias<") (ps := op ":" :: kw "public" :: strongToks) rfl w3)
  have w5 := whole_piece (p := tx "class ") (ps := [kw "class"]) rfl w4
  have hl : lex (aliasText name type) =
      some (kw "class" :: .word name :: ((op ":" :: kw "public" :: strongToks) ++ (ts ++ e1))) := by
    have := w5.lex
    simpa [aliasText, e1] using this
  have hr : ∀ n, ts.length ≤ n → readTypeName n (ts ++ e1) = some (ts, e1) := by
    intro n hn
    have := readTypeName_more (r := e1) ⟨rfl, rfl⟩ hn h2
    simpa using this
  have h3 : expectWord "struct" (kw "class" :: .word name :: ((op ":" :: kw "public" :: strongToks) ++ (ts ++ e1))) = none := by
    simp only [expectWord, kw]
    rfl
  simp only [readDecl, hl, readDeclToks, h3, expectWord_kw, readWord_plain hn, readAlias, expectAll_append]
  rw [hr _ (by simp only [List.length_cons, List.length_append]; omega)]
  simp only [e1, e2, if_true]

theorem readDecl_tag {name : Text} (hn : plainWord name) :
    readDecl (tx "struct " ++ (name ++ tx " { };\n")) = some (.tag name) := by
  have := (whole_piece (p := tx "struct ") (ps := [kw "struct"]) rfl (whole_word hn.1 (t := tx " { };\n")
    (ts := [op "{", op "}", op ";"]) rfl rfl)).lex
  have hl : lex (tx "struct " ++ (name ++ tx " { };\n")) = some [kw "struct", .word name, op "{", op "}", op ";"] := this
  simp only [readDecl, hl, readDeclToks, expectWord_kw, readWord_plain hn]
  rfl

end Nbdl.ClassReader
