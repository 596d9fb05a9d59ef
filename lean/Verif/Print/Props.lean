import Verif.Print.Spec
/-!
# C151: what is printed tells what it was
-/
namespace Nbdl.Print
open Spec

/-- The end of an element. -/
def Stops : Text → Prop
  | [] => True
  | c :: cs => c = ',' ∨ c = ')' ∨ c = '}' ∨ (c = ' ' ∧ cs.head? = some '=')

theorem plain_split : ∀ (a a' r r' : Text), Plain a → Plain a' → Stops r → Stops r' →
    a ++ r = a' ++ r' → a = a' ∧ r = r'
  | [], [], _, _, _, _, _, _, h => ⟨rfl, h⟩
  | [], c :: cs, r, r', _, hp, hr, hr', h => by
    exfalso
    obtain ⟨h1, h2, h3, h4, -⟩ := hp
    simp only [List.nil_append, List.cons_append] at h
    subst h
    rcases hr with hr | hr | hr | ⟨hr, hr2⟩
    · exact h1 hr
    · exact h2 hr
    · exact h3 hr
    · refine h4 ⟨hr, ?_⟩
      cases cs with
      | nil =>
        exfalso
        simp only [List.nil_append] at hr2
        cases r' with
        | nil => simp at hr2
        | cons d ds =>
          simp only [List.head?_cons, Option.some.injEq] at hr2
          subst hr2
          rcases hr' with e | e | e | ⟨e, -⟩ <;> exact absurd e (by decide)
      | cons d ds => simpa using hr2
  | c :: cs, [], r, r', hp, _, hr, hr', h => by
    exfalso
    obtain ⟨h1, h2, h3, h4, -⟩ := hp
    simp only [List.nil_append, List.cons_append] at h
    subst h
    rcases hr' with hr' | hr' | hr' | ⟨hr', hr2⟩
    · exact h1 hr'
    · exact h2 hr'
    · exact h3 hr'
    · refine h4 ⟨hr', ?_⟩
      cases cs with
      | nil =>
        exfalso
        simp only [List.nil_append] at hr2
        cases r with
        | nil => simp at hr2
        | cons d ds =>
          simp only [List.head?_cons, Option.some.injEq] at hr2
          subst hr2
          rcases hr with e | e | e | ⟨e, -⟩ <;> exact absurd e (by decide)
      | cons d ds => simpa using hr2
  | c :: cs, d :: ds, r, r', hp, hp', hr, hr', h => by
    simp only [List.cons_append, List.cons.injEq] at h
    obtain ⟨h1, h2⟩ := h
    have := plain_split cs ds r r' hp.2.2.2.2 hp'.2.2.2.2 hr hr' h2
    exact ⟨by rw [h1, this.1], this.2⟩

theorem stops_comma (t : Text) : Stops (", ".toList ++ t) := Or.inl rfl
theorem stops_arrow (t : Text) : Stops (" => ".toList ++ t) := Or.inr (Or.inr (Or.inr ⟨rfl, rfl⟩))
theorem stops_paren (t : Text) : Stops ([')'] ++ t) := Or.inr (Or.inl rfl)
theorem stops_brace (t : Text) : Stops (['}'] ++ t) := Or.inr (Or.inr (Or.inl rfl))

mutual
theorem print_split (v v' : Val) (r r' : Text) (ht : SameType v v') (hp : PlainLeaves v) (hp' : PlainLeaves v')
    (hr : Stops r) (hr' : Stops r') (h : print v ++ r = print v' ++ r') : v = v' ∧ r = r' := by
  match v, v', ht with
  | .leaf t, .leaf t', _ =>
    rw [print, print] at h
    obtain ⟨e1, e2⟩ := plain_split t t' r r' hp hp' hr hr' h
    exact ⟨by rw [e1], e2⟩
  | .const t, .const t', ht =>
    have e : t = t' := ht
    subst e
    exact ⟨rfl, List.append_cancel_left h⟩
  | .str t, .str t', ht =>
    have e : t = t' := ht
    subst e
    exact ⟨rfl, List.append_cancel_left h⟩
  | .nothing, .nothing, _ => exact ⟨rfl, List.append_cancel_left h⟩
  | .just v, .just v', ht =>
    rw [print, print] at h
    simp only [List.append_assoc] at h
    obtain ⟨e1, e2⟩ := print_split v v' _ _ ht hp hp' (stops_paren _) (stops_paren _) (List.append_cancel_left h)
    exact ⟨by rw [e1], List.append_cancel_left e2⟩
  | .pair a b, .pair a' b', ht =>
    rw [print, print] at h
    simp only [List.append_assoc] at h
    obtain ⟨e1, e2⟩ := print_split a a' _ _ ht.1 hp.1 hp'.1 (stops_comma _) (stops_comma _)
      (List.append_cancel_left h)
    obtain ⟨e3, e4⟩ := print_split b b' _ _ ht.2 hp.2 hp'.2 (stops_paren _) (stops_paren _)
      (List.append_cancel_left e2)
    exact ⟨by rw [e1, e3], List.append_cancel_left e4⟩
  | .seq xs, .seq ys, ht =>
    rw [print, print] at h
    simp only [List.append_assoc] at h
    obtain ⟨e1, e2⟩ := printAll_split xs ys _ _ ht hp hp' (stops_paren _) (stops_paren _)
      (List.append_cancel_left h)
    exact ⟨by rw [e1], List.append_cancel_left e2⟩
  | .set xs, .set ys, ht =>
    rw [print, print] at h
    simp only [List.append_assoc] at h
    obtain ⟨e1, e2⟩ := printAll_split xs ys _ _ ht hp hp' (stops_brace _) (stops_brace _)
      (List.append_cancel_left h)
    exact ⟨by rw [e1], List.append_cancel_left e2⟩
  | .map es, .map es', ht =>
    rw [print, print] at h
    simp only [List.append_assoc] at h
    obtain ⟨e1, e2⟩ := printEntries_split es es' _ _ ht hp hp' (stops_brace _) (stops_brace _)
      (List.append_cancel_left h)
    exact ⟨by rw [e1], List.append_cancel_left e2⟩
theorem printAll_split (xs ys : Vals) (r r' : Text) (ht : SameTypes xs ys) (hp : PlainAll xs) (hp' : PlainAll ys)
    (hr : Stops r) (hr' : Stops r') (h : printAll xs ++ r = printAll ys ++ r') : xs = ys ∧ r = r' := by
  match xs, ys, ht with
  | .nil, .nil, _ => exact ⟨rfl, h⟩
  | .cons v vs, .cons w ws, ht =>
    rw [printAll, printAll, List.append_assoc, List.append_assoc] at h
    obtain ⟨e1, e2⟩ := print_split v w _ _ ht.1 hp.1 hp'.1 (stops_rest vs r hr) (stops_rest ws r' hr') h
    obtain ⟨e3, e4⟩ := printRest_split vs ws r r' ht.2 hp.2 hp'.2 hr hr' e2
    exact ⟨by rw [e1, e3], e4⟩
theorem printRest_split (xs ys : Vals) (r r' : Text) (ht : SameTypes xs ys) (hp : PlainAll xs) (hp' : PlainAll ys)
    (hr : Stops r) (hr' : Stops r') (h : printRest xs ++ r = printRest ys ++ r') : xs = ys ∧ r = r' := by
  match xs, ys, ht with
  | .nil, .nil, _ => exact ⟨rfl, h⟩
  | .cons v vs, .cons w ws, ht =>
    rw [printRest, printRest] at h
    simp only [List.append_assoc] at h
    obtain ⟨e1, e2⟩ := print_split v w _ _ ht.1 hp.1 hp'.1 (stops_rest vs r hr) (stops_rest ws r' hr')
      (List.append_cancel_left h)
    obtain ⟨e3, e4⟩ := printRest_split vs ws r r' ht.2 hp.2 hp'.2 hr hr' e2
    exact ⟨by rw [e1, e3], e4⟩
theorem printEntries_split (xs ys : Entries) (r r' : Text) (ht : SameEntries xs ys) (hp : PlainEntries xs)
    (hp' : PlainEntries ys) (hr : Stops r) (hr' : Stops r') (h : printEntries xs ++ r = printEntries ys ++ r') :
    xs = ys ∧ r = r' := by
  match xs, ys, ht with
  | .nil, .nil, _ => exact ⟨rfl, h⟩
  | .cons k v es, .cons k' v' es', ht =>
    rw [printEntries, printEntries] at h
    simp only [List.append_assoc] at h
    obtain ⟨e1, e2⟩ := print_split k k' _ _ ht.1 hp.1 hp'.1 (stops_arrow _) (stops_arrow _) h
    obtain ⟨e3, e4⟩ := print_split v v' _ _ ht.2.1 hp.2.1 hp'.2.1 (stops_entries es r hr) (stops_entries es' r' hr')
      (List.append_cancel_left e2)
    obtain ⟨e5, e6⟩ := printEntriesRest_split es es' r r' ht.2.2 hp.2.2 hp'.2.2 hr hr' e4
    exact ⟨by rw [e1, e3, e5], e6⟩
theorem printEntriesRest_split (xs ys : Entries) (r r' : Text) (ht : SameEntries xs ys) (hp : PlainEntries xs)
    (hp' : PlainEntries ys) (hr : Stops r) (hr' : Stops r')
    (h : printEntriesRest xs ++ r = printEntriesRest ys ++ r') : xs = ys ∧ r = r' := by
  match xs, ys, ht with
  | .nil, .nil, _ => exact ⟨rfl, h⟩
  | .cons k v es, .cons k' v' es', ht =>
    rw [printEntriesRest, printEntriesRest] at h
    simp only [List.append_assoc] at h
    obtain ⟨e1, e2⟩ := print_split k k' _ _ ht.1 hp.1 hp'.1 (stops_arrow _) (stops_arrow _)
      (List.append_cancel_left h)
    obtain ⟨e3, e4⟩ := print_split v v' _ _ ht.2.1 hp.2.1 hp'.2.1 (stops_entries es r hr) (stops_entries es' r' hr')
      (List.append_cancel_left e2)
    obtain ⟨e5, e6⟩ := printEntriesRest_split es es' r r' ht.2.2 hp.2.2 hp'.2.2 hr hr' e4
    exact ⟨by rw [e1, e3, e5], e6⟩
theorem stops_rest (vs : Vals) (r : Text) (hr : Stops r) : Stops (printRest vs ++ r) := by
  match vs with
  | .nil => exact hr
  | .cons v vs => rw [printRest, List.append_assoc]; exact stops_comma _
theorem stops_entries (es : Entries) (r : Text) (hr : Stops r) : Stops (printEntriesRest es ++ r) := by
  match es with
  | .nil => exact hr
  | .cons k v es => rw [printEntriesRest, List.append_assoc]; exact stops_comma _
end

/-- C151, partial: values of one type that print the same are the same, if no text in them has a `,`, `)` or `}` or
` =` in it.  (Missing: other texts, see `print_ambiguous_violated`.) -/
theorem print_tells_partial (v v' : Val) (ht : SameType v v') (hp : PlainLeaves v) (hp' : PlainLeaves v')
    (h : print v = print v') : v = v' :=
  (print_split v v' [] [] ht hp hp' trivial trivial (by simpa using h)).1

/-- C151 fails: texts are not quoted, so that a comma in one of them moves to the next element. -/
theorem print_ambiguous_violated (a b c : Text) :
    let v : Val := .seq (.cons (.leaf (a ++ ", ".toList ++ b)) (.cons (.leaf c) .nil))
    let v' : Val := .seq (.cons (.leaf a) (.cons (.leaf (b ++ ", ".toList ++ c)) .nil))
    SameType v v' ∧ print v = print v' ∧ v ≠ v' := by
  refine ⟨⟨trivial, trivial, trivial⟩, ?_, ?_⟩
  · simp [print, printAll, printRest]
  · intro h
    simp only [Val.seq.injEq, Vals.cons.injEq, Val.leaf.injEq] at h
    have := congrArg List.length h.1
    simp at this

/-- C151, exactly, for two texts in a tuple: the printed text tells how they were divided just when there is no
other way to write it as two texts with a comma and a space between them. -/
theorem print_two_exact (a b : Text) :
    (∀ v : Val, SameType (.seq (.cons (.leaf a) (.cons (.leaf b) .nil))) v →
      print (.seq (.cons (.leaf a) (.cons (.leaf b) .nil))) = print v →
        .seq (.cons (.leaf a) (.cons (.leaf b) .nil)) = v)
    ↔ ∀ a' b' : Text, a' ++ ", ".toList ++ b' = a ++ ", ".toList ++ b → a' = a := by
  constructor
  · intro h a' b' e
    have := h (.seq (.cons (.leaf a') (.cons (.leaf b') .nil))) ⟨trivial, trivial, trivial⟩ (by
      simp only [print, printAll, printRest]
      have e2 := congrArg (· ++ [')']) e
      simpa [eq_comm] using e2)
    simp only [Val.seq.injEq, Vals.cons.injEq, Val.leaf.injEq] at this
    exact this.1.symm
  · intro h v ht hv
    match v, ht with
    | .seq (.cons (.leaf a') (.cons (.leaf b') .nil)), _ =>
      simp only [print, printAll, printRest, List.append_assoc, List.append_nil] at hv
      have h1 := List.append_cancel_left hv
      have h2 : (a ++ (", ".toList ++ b)) ++ [')'] = (a' ++ (", ".toList ++ b')) ++ [')'] := by
        simpa only [List.append_assoc] using h1
      have h3 := List.append_cancel_right h2
      have h4 := h a' b' (by simpa only [List.append_assoc] using h3.symm)
      subst h4
      rw [List.append_cancel_left (List.append_cancel_left h3)]

/-- Values of different types may print the same: a tuple of two numbers, a pair of them and a text. -/
theorem types_ambiguous_violated (a b : Text) :
    print (.seq (.cons (.leaf a) (.cons (.leaf b) .nil))) = print (.pair (.leaf a) (.leaf b))
    ∧ print (.leaf (['('] ++ a ++ ", ".toList ++ b ++ [')'])) = print (.pair (.leaf a) (.leaf b))
    ∧ ¬ SameType (.seq (.cons (.leaf a) (.cons (.leaf b) .nil))) (.pair (.leaf a) (.leaf b)) := by
  refine ⟨by simp [print, printAll, printRest], by simp [print], fun h => h⟩

theorem printAll_commas (xs : Vals) : printAll xs = commas ((elements xs).map print) := by
  match xs with
  | .nil => rfl
  | .cons v .nil => simp [printAll, printRest, elements, commas]
  | .cons v (.cons w ws) =>
    have := printAll_commas (.cons w ws)
    rw [printAll, printRest]
    rw [printAll] at this
    rw [this]
    simp [elements, commas]

theorem printEntries_commas (es : Entries) :
    printEntries es = commas ((entries es).map fun e => print e.1 ++ " => ".toList ++ print e.2) := by
  match es with
  | .nil => rfl
  | .cons k v .nil => simp [printEntries, printEntriesRest, entries, commas]
  | .cons k v (.cons k' v' es) =>
    have := printEntries_commas (.cons k' v' es)
    rw [printEntries, printEntriesRest]
    rw [printEntries] at this
    rw [this]
    simp [entries, commas]

/-- C151: the parts of a container are all printed, in order, with separators between them. -/
theorem print_parts (xs : Vals) (es : Entries) :
    print (.seq xs) = ['('] ++ commas ((elements xs).map print) ++ [')']
    ∧ print (.set xs) = ['{'] ++ commas ((elements xs).map print) ++ ['}']
    ∧ print (.map es) = ['{'] ++ commas ((entries es).map fun e => print e.1 ++ " => ".toList ++ print e.2)
        ++ ['}'] := by
  rw [print, print, print, printAll_commas, printEntries_commas]
  exact ⟨rfl, rfl, rfl⟩

theorem cString_all (t : Text) (h : '\x00' ∉ t) : cString t = t := by
  induction t with
  | nil => rfl
  | cons c cs ih =>
    simp only [List.mem_cons, not_or] at h
    rw [cString, if_neg (fun e => h.1 e.symm), ih h.2]

theorem cString_cut (t u : Text) (h : '\x00' ∉ t) : cString (t ++ '\x00' :: u) = t := by
  induction t with
  | nil => simp [cString]
  | cons c cs ih =>
    simp only [List.mem_cons, not_or] at h
    rw [List.cons_append, cString, if_neg (fun e => h.1 e.symm), ih h.2]

/-- C151: the text of every other value: a streamed value as it is, a string of the language in quotes and cut at a NUL
in it, an optional with `just( )` around its value or as `nothing`, a pair in parentheses. -/
theorem print_others (v w : Val) (t u : Text) (h : '\x00' ∉ t) :
    print (.leaf t) = t ∧ print (.const t) = t
    ∧ print (.str t) = ['"'] ++ t ++ ['"'] ∧ print (.str (t ++ '\x00' :: u)) = ['"'] ++ t ++ ['"']
    ∧ print .nothing = "nothing".toList ∧ print (.just v) = "just(".toList ++ print v ++ ")".toList
    ∧ print (.pair v w) = "(".toList ++ print v ++ ", ".toList ++ print w ++ ")".toList := by
  simp only [print, cString_all t h, cString_cut t u h]
  exact ⟨trivial, trivial, trivial, trivial, trivial, rfl, rfl⟩

example : '\x00' ∉ "key_4".toList ∧ print (.str ("key".toList ++ '\x00' :: "_4".toList)) = "\"key\"".toList := by
  decide +kernel

/-! The two values the example program prints (main.cpp:101-112, two of the numbers and one of the keys left out). -/

def exTuple : Val := .seq <|
  .cons (.leaf "This".toList) <| .cons (.leaf "is a tuple with".toList) <| .cons (.leaf "6".toList) <|
  .cons (.leaf "elements".toList) <| .cons (.str "I'm a compile time string!".toList) <|
  .cons (.leaf "Last".toList) .nil

def exMap : Val := .map <|
  .cons (.str "key_1".toList) (.leaf "value1".toList) <|
  .cons (.str "key_3".toList) (.just (.leaf "5".toList)) <|
  .cons (.str "key_4".toList) .nothing <|
  .cons (.str "key_5".toList) (.seq (.cons (.leaf "1".toList) (.cons (.leaf "tuple".toList) .nil))) .nil

example : print exTuple = "(This, is a tuple with, 6, elements, \"I'm a compile time string!\", Last)".toList
    ∧ print exMap = "{\"key_1\" => value1, \"key_3\" => just(5), \"key_4\" => nothing, \"key_5\" => (1, tuple)}".toList := by
  decide +kernel

example : SameType exTuple exTuple ∧ PlainLeaves exTuple ∧ SameType exMap exMap ∧ PlainLeaves exMap := by
  simp [exTuple, exMap, SameType, SameTypes, SameEntries, PlainLeaves, PlainAll, PlainEntries, Plain]

end Nbdl.Print
