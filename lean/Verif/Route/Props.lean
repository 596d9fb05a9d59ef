import Verif.Route.Lemmas
/-!
# Properties of route maps (C45, C46)
-/
namespace Nbdl.Route
open Spec

/-! ## C46 -/

/-- Finding the route by its name. -/
theorem findIdx_name (rm : List Pair) (name : List Byte) (i : Nat) (p : Pair) (hp : rm[i]? = some p) :
    rm.findIdx? (·.name = name) = some i ↔
      p.name = name ∧ ∀ j < i, ∀ q, rm[j]? = some q → q.name ≠ p.name := by
  obtain ⟨hi, hp⟩ := List.getElem?_eq_some_iff.1 hp
  rw [List.findIdx?_eq_some_iff_getElem]
  constructor
  · rintro ⟨h, h1, h2⟩
    simp only [hp, decide_eq_true_eq] at h1
    refine ⟨h1, fun j hj q hq => ?_⟩
    obtain ⟨_, rfl⟩ := List.getElem?_eq_some_iff.1 hq
    have := h2 j hj
    simp at this
    rw [h1]; exact this
  · rintro ⟨h1, h2⟩
    refine ⟨hi, by simp [hp, h1], fun j hj => ?_⟩
    have := h2 j hj _ (List.getElem?_eq_getElem (by omega))
    simp only [Bool.not_eq_true, decide_eq_false_iff_not]
    rw [← h1]; exact this

/-- `from_string` accepts exactly the texts that stand for a route value, and gives that value. -/
theorem parse_exact (W : Nat) (rm : List Pair) (hs : Small rm) (s : List Byte) (v : Value) :
    fromString W rm s = .ok (some v) ↔ Means W rm s v := by
  -- the part after splitting
  have make (ps : List (List Byte)) (count : Nat) (hps : ∀ x ∈ ps.tail, x ≠ [])
      (hc : ps.tail.length + 1 = count) :
      makeFromParams W rm ps count = .ok (some v) ↔
        ∃ p, rm[v.idx]? = some p ∧ (∀ j < v.idx, ∀ q, rm[j]? = some q → q.name ≠ p.name) ∧
          p.name = ps.getD 0 [] ∧ DenotesAll W p.members ps.tail v.members := by
    rw [makeFromParams]
    constructor
    · intro h
      split at h
      · simp at h
      · next i hi =>
        split at h
        · simp at h
        · next p hp =>
          split at h
          · simp at h
          · split at h
            · simp at h
            · next hl =>
              simp only [Cpp.ok.injEq, Option.map_eq_some_iff] at h
              obtain ⟨vs, hb, rfl⟩ := h
              have := (findIdx_name rm _ i p hp).1 hi
              exact ⟨p, hp, this.2, this.1, (bindAll_iff W _ _ hps (by omega) _).1 hb⟩
    · rintro ⟨p, hp, h1, h2, h3⟩
      have hl : ps.tail.length = p.members.length := by
        have aux : ∀ (ts : List PTy) (xs : List (List Byte)) (vs : List PVal),
            DenotesAll W ts xs vs → xs.length = ts.length := by
          intro ts
          induction ts with
          | nil => intro xs vs h; cases xs <;> cases vs <;> simp_all [DenotesAll]
          | cons t ts ih =>
            intro xs vs h
            cases xs with
            | nil => cases vs <;> simp [DenotesAll] at h
            | cons x xs =>
              cases vs with
              | nil => simp [DenotesAll] at h
              | cons v vs => simp [ih xs vs h.2]
        exact aux _ _ _ h3
      rw [(findIdx_name rm _ v.idx p hp).2 ⟨h2, h1⟩]
      simp only [hp]
      have hm := hs p (List.mem_of_getElem? hp)
      rw [if_neg (by simp only [maxParams]; omega), if_neg (by omega),
        (bindAll_iff W _ _ hps (by omega) _).2 h3]
      rfl
  unfold Means
  cases s with
  | nil =>
    simp only [fromString, Cpp.ok.injEq, reduceCtorEq, false_iff]
    rintro ⟨p, -, -, h | ⟨xs, -, -, -, h, -⟩⟩
    · simp at h
    · simp [url] at h
  | cons c s' =>
    rw [fromString]
    by_cases hc : c = slash
    · subst hc
      rw [if_neg (by simp)]
      split
      · next h0 =>
        have h0 : s' = [] := List.length_eq_zero_iff.1 h0
        subst h0
        rw [make [] 1 (by simp) rfl]
        constructor
        · rintro ⟨p, hp, h1, h2, h3⟩
          refine ⟨p, hp, h1, .inl ⟨rfl, h2, ?_⟩⟩
          revert h3
          cases p.members <;> cases v.members <;> simp [DenotesAll]
        · rintro ⟨p, hp, h1, ⟨-, h2, h3, h4⟩ | ⟨xs, h2, -, -, h, -⟩⟩
          · exact ⟨p, hp, h1, h2, by rw [h3, h4]; trivial⟩
          · exfalso
            rcases h with h | ⟨h, -⟩ <;> simp [url] at h <;> exact h2.1 h.1
      · next h0 =>
        have h0 : s' ≠ [] := fun e => h0 (by rw [e]; rfl)
        simp only []
        generalize hr : parseLoop maxParams (slash :: s') = r
        obtain ⟨ps, rest⟩ := r
        simp only []
        by_cases hrest : rest = []
        · subst hrest
          rw [if_neg (by simp)]
          obtain ⟨tr, e, h1, h2, h3⟩ := (parseLoop_iff _ _ _).1 hr
          cases ps with
          | nil =>
            exfalso
            rcases h3 with rfl | ⟨rfl, -⟩
            · simp at e
            · simp at e; exact h0 e
          | cons name xs =>
            rw [make (name :: xs) (name :: xs).length (fun x hx => (h1 x (List.mem_cons_of_mem _ hx)).1) (by simp)]
            constructor
            · rintro ⟨p, hp, h4, h5, h6⟩
              simp only [List.getD_cons_zero] at h5
              subst h5
              refine ⟨p, hp, h4, .inr ⟨xs, h1 _ (by simp), fun x hx => h1 x (by simp [hx]), ?_, ?_, h6⟩⟩
              · simpa [maxParams] using h2
              · rcases h3 with rfl | ⟨rfl, h⟩
                · left; simpa [url] using e
                · right; exact ⟨by simpa [url] using e, by simp only [maxParams, List.length_cons] at h; omega⟩
            · rintro ⟨p, hp, h4, ⟨h, -⟩ | ⟨ys, h5, h6, h7, h8, h9⟩⟩
              · simp at h; exact absurd h h0
              · have : parseLoop maxParams (slash :: s') = (p.name :: ys, []) := by
                  rw [parseLoop_iff]
                  rcases h8 with h8 | ⟨h8, h10⟩
                  · exact ⟨[], by rw [h8]; simp [url], by simpa using ⟨h5, h6⟩,
                      by simpa [maxParams] using h7, .inl rfl⟩
                  · exact ⟨[slash], by rw [h8]; simp [url], by simpa using ⟨h5, h6⟩,
                      by simpa [maxParams] using h7, .inr ⟨rfl, by simp only [maxParams, List.length_cons]; omega⟩⟩
                rw [hr] at this
                simp only [Prod.mk.injEq, List.cons.injEq, and_true] at this
                obtain ⟨rfl, rfl⟩ := this
                exact ⟨p, hp, h4, rfl, h9⟩
        · rw [if_pos (by simpa using hrest)]
          simp only [Cpp.ok.injEq, reduceCtorEq, false_iff]
          rintro ⟨p, hp, h4, ⟨h, -⟩ | ⟨ys, h5, h6, h7, h8, h9⟩⟩
          · simp at h; exact absurd h h0
          · have : parseLoop maxParams (slash :: s') = (p.name :: ys, []) := by
              rw [parseLoop_iff]
              rcases h8 with h8 | ⟨h8, h10⟩
              · exact ⟨[], by rw [h8]; simp [url], by simpa using ⟨h5, h6⟩,
                  by simpa [maxParams] using h7, .inl rfl⟩
              · exact ⟨[slash], by rw [h8]; simp [url], by simpa using ⟨h5, h6⟩,
                  by simpa [maxParams] using h7, .inr ⟨rfl, by simp only [maxParams, List.length_cons]; omega⟩⟩
            rw [hr] at this
            simp only [Prod.mk.injEq] at this
            exact hrest this.2
    · rw [if_pos hc]
      simp only [Cpp.ok.injEq, reduceCtorEq, false_iff]
      rintro ⟨p, -, -, h | ⟨xs, -, -, -, h, -⟩⟩
      · simp at h; exact hc h.1.1
      · rcases h with h | ⟨h, -⟩ <;> simp [url] at h <;> exact hc h.1

/-- Parsing never reads outside the parameter array, whatever the text, if no route has more than nine members. -/
theorem parse_safe (W : Nat) (rm : List Pair) (hs : Small rm) (s : List Byte) : fromString W rm s ≠ .ub := by
  have make (ps : List (List Byte)) (count : Nat) : makeFromParams W rm ps count ≠ .ub := by
    rw [makeFromParams]
    split
    · simp
    · split
      · simp
      · next p hp =>
        have hm := hs p (List.mem_of_getElem? hp)
        rw [if_neg (by simp only [maxParams]; omega)]
        split <;> simp
  cases s with
  | nil => simp [fromString]
  | cons c s =>
    rw [fromString]
    split
    · simp
    · split
      · exact make _ _
      · simp only []
        split
        · simp
        · exact make _ _

/-- Every other text gives `route_not_found`. -/
theorem parse_not_found (W : Nat) (rm : List Pair) (hs : Small rm) (s : List Byte)
    (h : ∀ v, ¬ Means W rm s v) : fromString W rm s = .ok none := by
  cases hr : fromString W rm s with
  | ub => exact absurd hr (parse_safe W rm hs s)
  | ok r =>
    cases r with
    | none => rfl
    | some v => exact absurd ((parse_exact W rm hs s v).1 hr) (h v)

/-- The route map of test/nbdl/webui/route_map.cpp. -/
def exMap : List Pair :=
  [⟨[], []⟩, ⟨ascii "foo", [.int 64 false]⟩, ⟨ascii "bar", [.str]⟩, ⟨ascii "baz", [.int 64 false, .str]⟩,
    ⟨ascii "boo-moo", []⟩]

example : Small exMap ∧ Distinct exMap := by simp only [Small, Distinct]; decide
example : fromString 64 exMap (ascii "/baz/42/w") = .ok (some ⟨3, [.int 42, .str (ascii "w")]⟩) := by decide
example : fromString 64 exMap (ascii "/") = .ok (some ⟨0, []⟩) := by decide
example : fromString 64 exMap (ascii "/foo/4/4") = .ok none := by decide
example : fromString 64 exMap (ascii "/baz/0/nozeros") = .ok none := by decide
example : fromString 64 exMap (ascii "/boo-moo/") = .ok (some ⟨4, []⟩) := by decide

/-- VIOLATION: a number that does not fit is not reported; it is taken modulo the size of the type. -/
theorem overflow_accepted_violated :
    fromString 64 exMap (ascii "/foo/18446744073709551617") = .ok (some ⟨1, [.int 1]⟩) ∧
    fromString 64 [⟨ascii "foo", [.int 8 true]⟩] (ascii "/foo/200") = .ok (some ⟨0, [.int (-56)]⟩) := by
  decide +kernel

/-- VIOLATION: for a route with ten or more members every text with its name reads past the end of the
parameter array. -/
theorem many_members_ub_violated (W : Nat) (rm : List Pair) (i : Nat) (p : Pair) (hp : rm[i]? = some p)
    (hfirst : ∀ j < i, ∀ q, rm[j]? = some q → q.name ≠ p.name) (hn : Segment p.name) (hm : 9 < p.members.length) :
    fromString W rm (slash :: p.name) = .ub := by
  have hl : parseLoop maxParams (slash :: p.name) = ([p.name], []) := by
    rw [parseLoop_iff]
    exact ⟨[], by simp, by simpa using hn, by simp [maxParams], .inl rfl⟩
  rw [fromString, if_neg (by simp), if_neg (by simpa using hn.1)]
  simp only [hl, List.length_nil, ne_eq, not_true, if_false, makeFromParams, List.getD_cons_zero]
  rw [(findIdx_name rm _ i p hp).2 ⟨rfl, hfirst⟩]
  simp only [hp]
  rw [if_pos (by simp only [maxParams]; omega)]

example : Segment (ascii "foo") := by simp only [Segment]; decide

/-! ## C45 -/

theorem toString_params (vs : List PVal) :
    vs.flatMap appendParam = (vs.map fun | .str s => s | .int i => toStringInt i).flatMap (slash :: ·) := by
  induction vs with
  | nil => rfl
  | cons v vs ih => cases v <;> simp [appendParam, ih]

theorem toStringInt_pos {i : Int} (h : 0 < i) : toStringInt i = digits i.toNat := by
  rw [toStringInt, if_neg (by omega)]
  congr 1
  omega

theorem readable_denotes (W : Nat) (ts : List PTy) (vs : List PVal) (ht : Typed ts vs)
    (h : ∀ v ∈ vs, Readable W v) :
    DenotesAll W ts (vs.map fun | .str s => s | .int i => toStringInt i) vs := by
  induction ts generalizing vs with
  | nil => cases vs <;> simp_all [Typed, DenotesAll]
  | cons t ts ih =>
    cases vs with
    | nil => cases t <;> simp [Typed] at ht
    | cons v vs =>
      have h' : ∀ v ∈ vs, Readable W v := fun v hv => h v (by simp [hv])
      have hv := h v (by simp)
      cases t with
      | str =>
        cases v with
        | int => simp [Typed] at ht
        | str s => exact ⟨rfl, ih vs ht h'⟩
      | int bits signed =>
        cases v with
        | str => simp [Typed] at ht
        | int i =>
          obtain ⟨h1, h2⟩ := ht
          simp only [Readable] at hv
          refine ⟨⟨?_, i, rfl, by omega, ?_⟩, ih vs h2 h'⟩
          · simp only [toStringInt_pos hv.1]; exact digits_digit _
          · simp only [toStringInt_pos hv.1, number_digits]
            have hW : i.toNat < 2 ^ W := by
              have := hv.2
              have h2 : ((2 ^ W : Nat) : Int) = 2 ^ W := by simp
              omega
            rw [Nat.mod_eq_of_lt hW, wrap_id]
            · omega
            · cases signed <;> simp at h1 ⊢ <;> omega

theorem denotes_readable (W : Nat) (ts : List PTy) (xs : List (List Byte)) (vs : List PVal) (tr : List Byte)
    (htr : tr = [] ∨ tr = [slash]) (hx : ∀ x ∈ xs, Segment x) (hd : DenotesAll W ts xs vs)
    (he : vs.flatMap appendParam = xs.flatMap (slash :: ·) ++ tr) : ∀ v ∈ vs, Readable W v := by
  induction ts generalizing xs vs with
  | nil => cases vs with
    | nil => simp
    | cons => cases xs <;> simp [DenotesAll] at hd
  | cons t ts ih =>
    cases xs with
    | nil => cases vs <;> simp [DenotesAll] at hd
    | cons x xs =>
      cases vs with
      | nil => simp
      | cons v vs =>
        obtain ⟨h1, h2⟩ := hd
        have hsx := hx x (by simp)
        have hstart : vs.flatMap appendParam = [] ∨ ∃ r, vs.flatMap appendParam = slash :: r := by
          rw [toString_params]
          have := starts (vs.map fun | .str s => s | .int i => toStringInt i) [] (.inl rfl)
          simpa using this
        cases t with
        | str =>
          simp only [Denotes] at h1
          subst h1
          simp only [List.flatMap_cons, appendParam, List.cons_append, List.cons.injEq, true_and,
            List.append_assoc, List.append_cancel_left_eq] at he
          intro w hw
          rcases List.mem_cons.1 hw with rfl | hw
          · exact hsx
          · exact ih xs vs (fun y hy => hx y (by simp [hy])) h2 he w hw
        | int bits signed =>
          obtain ⟨hdig, i, rfl, hi0, hi⟩ := h1
          simp only [List.flatMap_cons, appendParam, List.cons_append, List.cons.injEq, true_and,
            List.append_assoc] at he
          obtain ⟨e1, e2⟩ := split_slash _ _ _ _ (toStringInt_segment i).2 hsx.2 hstart (starts xs tr htr) he
          intro w hw
          rcases List.mem_cons.1 hw with rfl | hw
          · subst e1
            have hnn : ¬ i < 0 := by
              intro hneg
              rw [toStringInt, if_pos hneg] at hdig
              have := hdig 0x2d#8 (by simp)
              simp [isDigit] at this
            have hpos : 0 < i := by omega
            rw [toStringInt_pos hpos, number_digits] at hi
            refine ⟨hpos, ?_⟩
            have hle := wrap_le bits signed (i.toNat % 2 ^ W)
            have hlt := Nat.mod_lt i.toNat (Nat.two_pow_pos W)
            have h2 : ((2 ^ W : Nat) : Int) = 2 ^ W := by simp
            omega
          · exact ih xs vs (fun y hy => hx y (by simp [hy])) h2 e2 w hw

/-- The text of a route value is read back as that value exactly if its strings are not empty and without
slashes and its numbers are positive and fit into `std::size_t`, for a route with a proper name (or the
empty name and no members). -/
theorem round_trip_iff (W : Nat) (rm : List Pair) (hs : Small rm) (hd : Distinct rm) (v : Value) (p : Pair)
    (hp : rm[v.idx]? = some p) (ht : Typed p.members v.members) :
    fromString W rm (toString rm v) = .ok (some v) ↔
      (p.name = [] ∧ v.members = []) ∨ (Segment p.name ∧ ∀ m ∈ v.members, Readable W m) := by
  have hfirst : ∀ j < v.idx, ∀ q, rm[j]? = some q → q.name ≠ p.name := by
    intro j hj q hq e
    obtain ⟨hi, hp'⟩ := List.getElem?_eq_some_iff.1 hp
    obtain ⟨hj', hq'⟩ := List.getElem?_eq_some_iff.1 hq
    have := (List.getElem?_inj (i := j) (j := v.idx) (l := rm.map fun x : Pair => x.name) (by simpa using hj') hd).1 (by
      rw [List.getElem?_map, List.getElem?_map, hq, hp]; simp [e])
    omega
  have htext : toString rm v = slash :: p.name ++ v.members.flatMap appendParam := by
    rw [toString, hp]
  have hempty : v.members = [] → p.members = [] := by
    intro e
    rw [e] at ht
    revert ht
    cases p.members with
    | nil => simp
    | cons t => cases t <;> simp [Typed]
  rw [parse_exact W rm hs, htext]
  constructor
  · rintro ⟨p', hp', -, h⟩
    obtain rfl : p = p' := by rw [hp] at hp'; simpa using hp'
    rcases h with ⟨h1, h2, h3, h4⟩ | ⟨xs, h1, h2, h3, h4, h5⟩
    · exact .inl ⟨h2, h4⟩
    · refine .inr ⟨h1, ?_⟩
      rcases h4 with h4 | ⟨h4, -⟩
      · refine denotes_readable W _ xs _ [] (.inl rfl) h2 h5 ?_
        simpa [url] using h4
      · refine denotes_readable W _ xs _ [slash] (.inr rfl) h2 h5 ?_
        simpa [url] using h4
  · rintro (⟨h1, h2⟩ | ⟨h1, h2⟩)
    · exact ⟨p, hp, hfirst, .inl ⟨by rw [h1, h2]; rfl, h1, hempty h2, h2⟩⟩
    · refine ⟨p, hp, hfirst, .inr ⟨v.members.map fun | .str s => s | .int i => toStringInt i, h1, ?_, ?_, ?_, ?_⟩⟩
      · intro x hx
        obtain ⟨m, hm, rfl⟩ := List.mem_map.1 hx
        cases m with
        | str s => exact h2 _ hm
        | int i => exact toStringInt_segment i
      · have hl : ∀ (ts : List PTy) (vs : List PVal), Typed ts vs → vs.length = ts.length := by
          intro ts
          induction ts with
          | nil => intro vs h; cases vs <;> simp_all [Typed]
          | cons t ts ih =>
            intro vs h
            cases vs with
            | nil => cases t <;> simp [Typed] at h
            | cons v vs =>
              cases t <;> cases v <;> simp only [Typed] at h <;> try exact h.elim
              · simp [ih vs h]
              · simp [ih vs h.2]
        have := hs p (List.mem_of_getElem? hp)
        simp [hl _ _ ht, this]
      · left
        rw [toString_params]
        simp [url]
      · exact readable_denotes W _ _ ht h2

example : Typed [.int 64 false, .str] [.int 42, .str (ascii "world")] := by simp [Typed]
example : Readable 64 (.int 42) ∧ Readable 64 (.str (ascii "world")) := by
  simp only [Readable, Segment]; decide
example : toString exMap ⟨3, [.int 42, .str (ascii "world")]⟩ = ascii "/baz/42/world" := by decide

/-- VIOLATION of the round trip: a string that ends with a slash comes back without it, a string with a
slash inside, an empty string, zero and negative numbers are not found. -/
theorem round_trip_violated :
    fromString 64 exMap (toString exMap ⟨2, [.str (ascii "a/")]⟩) = .ok (some ⟨2, [.str (ascii "a")]⟩) ∧
    fromString 64 exMap (toString exMap ⟨2, [.str (ascii "a/b")]⟩) = .ok none ∧
    fromString 64 exMap (toString exMap ⟨2, [.str []]⟩) = .ok none ∧
    fromString 64 exMap (toString exMap ⟨1, [.int 0]⟩) = .ok none ∧
    fromString 64 [⟨ascii "foo", [.int 32 true]⟩] (toString [⟨ascii "foo", [.int 32 true]⟩] ⟨0, [.int (-5)]⟩) =
      .ok none := by
  decide

end Nbdl.Route
