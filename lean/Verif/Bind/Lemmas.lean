import Verif.Bind.Spec
namespace Nbdl.Bind
open Spec

theorem asUInt_iff (j : Json) (v : BitVec 32) : asUInt j = some v ↔ j = .num v.toNat := by
  cases j <;> simp [asUInt]
  rename_i n
  constructor
  · rintro ⟨h, rfl⟩
    rw [BitVec.toNat_ofInt]; omega
  · rintro rfl
    refine ⟨⟨by omega, by have := v.isLt; omega⟩, ?_⟩
    apply BitVec.eq_of_toNat_eq
    rw [BitVec.toNat_ofInt]; have := v.isLt; omega

theorem asInt_iff (j : Json) (v : BitVec 32) : asInt j = some v ↔ j = .num v.toInt := by
  cases j <;> simp [asInt]
  rename_i n
  constructor
  · rintro ⟨h, rfl⟩
    rw [BitVec.toInt_ofInt]; unfold inInt at h; simp only [Int.bmod]; split <;> omega
  · rintro rfl
    refine ⟨?_, BitVec.ofInt_toInt⟩
    have h1 := v.toInt_lt
    have h2 := v.le_toInt
    unfold inInt
    omega

theorem readString_iff (j : Json) (s : List Byte) :
    readString j = some s ↔ ∃ s', j = .str s' ∧ s = s'.takeWhile (· ≠ 0#8) := by
  cases j <;> simp [readString]
  exact ⟨fun h => h.symm, fun h => h.symm⟩

theorem readBuffer_iff (dyn : Bool) (j : Json) (old b : List Byte) :
    readBuffer dyn j old = some b
      ↔ ∃ s' ok, j = .str s' ∧ Base64.decode2 dyn (s'.takeWhile (· ≠ 0#8)) old = .ok (ok, b) := by
  unfold readBuffer
  cases j <;> simp [readString]
  rename_i s
  generalize Base64.decode2 dyn _ old = r
  cases r with
  | ub => simp
  | ok r => obtain ⟨ok, o⟩ := r; cases ok <;> simp [eq_comm]

theorem readAll_iff {α : Type} (f : Json → Option α) (R : Json → α → Prop) (h : ∀ j v, f j = some v ↔ R j v)
    (js : List Json) (vs : List α) : readAll f js = some vs ↔ All2 R js vs := by
  induction js generalizing vs with
  | nil => cases vs <;> simp [readAll, All2]
  | cons j js ih =>
    unfold readAll
    cases hf : f j with
    | none =>
      cases vs with
      | nil => simp [All2]
      | cons v vs =>
        simp only [All2, ← h, hf]
        simp
    | some a =>
      cases vs with
      | nil => simp [All2]
      | cons v vs =>
        simp only [All2, ← h, hf, ← ih]
        constructor
        · intro h'
          obtain ⟨a', h1, h2⟩ := Option.map_eq_some_iff.1 h'
          injection h2 with h2 h3
          subst h2; subst h3
          exact ⟨rfl, h1⟩
        · rintro ⟨h1, h2⟩
          injection h1 with h1
          rw [h2, h1]; rfl

theorem typeId_num (n : Int) : typeId (.num n) = if inInt n then some n else none := rfl

/-- What `get_variant_type_id` accepts. -/
theorem typeId_iff (j : Json) (id : Int) :
    typeId j = some id ↔ inInt id ∧ (j = .num id ∨ ∃ x, j = .arr [.num id, x]) := by
  unfold typeId
  split
  · rename_i n
    by_cases h : inInt n
    · simp [h]; rintro rfl; exact h
    · simp [h]; rintro h' rfl; exact h h'
  · rename_i n x
    by_cases h : inInt n
    · simp [h]; rintro rfl; exact h
    · simp [h]; rintro h' rfl; exact h h'
  · rename_i h1 h2
    simp
    intro _
    exact ⟨h1 id, fun x => h2 id x⟩

/-- Reading one alternative. -/
theorem readOne_iff (t : Ty) (i : Nat) (j : Json) (v : denote t)
    (ih : ∀ j v, read t j (init t) = some v ↔ describes true t j v) (hinit : t.isEmpty = true → ∀ v, v = init t) :
    typeId j = some (i : Int) → ((if t.isEmpty then (match j with | .num _ => some (init t) | _ => none)
      else (match j with | .arr [_, x] => read t x (init t) | _ => none)) = some v
    ↔ altDoc true t.isEmpty i j (describes true t · v)) := by
  intro hid
  have hi := (typeId_iff j i).1 hid
  have hlt : i < 2 ^ 31 := by have := hi.1; unfold inInt at this; omega
  unfold altDoc
  cases he : t.isEmpty with
  | true =>
    simp only [if_true, hlt, implies_true, true_and]
    rcases hi.2 with rfl | ⟨x, rfl⟩
    · simp [hinit he v]
    · simp
  | false =>
    simp only [Bool.false_eq_true, if_false, hlt, implies_true, true_and]
    rcases hi.2 with rfl | ⟨x, rfl⟩
    · simp
    · simp [ih]

theorem empty_init (t : Ty) (h : t.isEmpty = true) (v : denote t) : v = init t := by
  cases t <;> simp [Ty.isEmpty] at h
  rfl

theorem map_inl {α β : Type} (o : Option α) (v : α) : o.map (Sum.inl (β := β)) = some (.inl v) ↔ o = some v := by
  cases o <;> simp
theorem map_inl_inr {α β : Type} (o : Option α) (v : β) : o.map (Sum.inl (β := β)) = some (.inr v) ↔ False := by
  cases o <;> simp

theorem readMany_short : (ts : Tys) → (js : List Json) → (old : members ts) → js.length < ts.count →
    readMany ts js old = none
  | .nil, _, _, h => by simp [Tys.count] at h
  | .cons _ t ts, js, old, h => by
    unfold readMany
    unfold Tys.count at h
    split
    · rename_i he
      rw [if_pos he] at h
      rw [readMany_short ts js old.2 h]; rfl
    · rename_i he
      rw [if_neg he] at h
      cases js with
      | nil => rfl
      | cons j js =>
        simp only
        cases read t j old.1 with
        | none => rfl
        | some v =>
          simp only
          rw [readMany_short ts js old.2 (by simp at h; omega)]; rfl

theorem describesMany_length (lax : Bool) : (ts : Tys) → (js : List Json) → (v : members ts) →
    describesMany lax ts js v → js.length = ts.count
  | .nil, _, _, h => by simp only [describesMany] at h; subst h; rfl
  | .cons _ t ts, js, v, h => by
    unfold describesMany at h
    unfold Tys.count
    split at h
    · rename_i he
      rw [if_pos he]; exact describesMany_length lax ts js v.2 h
    · rename_i he
      obtain ⟨j, js', rfl, -, h⟩ := h
      rw [if_neg he]
      simp [describesMany_length lax ts js' v.2 h]

theorem count_zero_init : (ts : Tys) → ts.count = 0 → ∀ v, v = initAll ts
  | .nil, _, _ => rfl
  | .cons _ t ts, h, v => by
    unfold Tys.count at h
    split at h
    · rename_i he
      have h1 := count_zero_init ts h v.2
      have h2 := empty_init t he v.1
      unfold initAll
      rw [← h1, ← h2]
    · omega

theorem altDoc_typeId {e : Bool} {i : Nat} {j : Json} {p : Json → Prop} (h : altDoc true e i j p) :
    typeId j = some (i : Int) := by
  obtain ⟨hi, h⟩ := h
  have hi := hi rfl
  rw [typeId_iff]
  refine ⟨by unfold inInt; omega, ?_⟩
  split at h
  · exact .inl h
  · obtain ⟨x, h, -⟩ := h
    exact .inr ⟨x, h⟩

theorem names_length : (ts : Tys) → (names ts).length = ts.length
  | .nil => rfl
  | .cons _ _ ts => by simp [names, Tys.length, names_length ts]

theorem describesAlts_typeId : (ts : Tys) → (i : Nat) → (j : Json) → (v : alts ts) →
    describesAlts true ts i j v → ∃ p, i ≤ p ∧ p < i + ts.length ∧ typeId j = some (p : Int)
  | .cons _ t ts, i, j, .inl v, h => ⟨i, Nat.le_refl _, by simp only [Tys.length]; omega, altDoc_typeId h⟩
  | .cons _ t ts, i, j, .inr v, h => by
    obtain ⟨p, h1, h2, h3⟩ := describesAlts_typeId ts (i + 1) j v h
    exact ⟨p, by omega, by simp only [Tys.length]; omega, h3⟩

theorem ofFn_zero (n : Nat) : List.ofFn (fun _ : Fin n => 0#8) = List.replicate n 0#8 := by
  apply List.ext_getElem <;> simp

mutual
theorem read_iff_aux : (t : Ty) → ∀ (j : Json) (v : denote t), read t j (init t) = some v ↔ describes true t j v
  | .empty, j, v => by simp [read, describes, init]
  | .uint, j, v => by simp only [read, describes]; exact asUInt_iff j v
  | .int, j, v => by simp only [read, describes]; exact asInt_iff j v
  | .enum, j, v => by simp only [read, describes, if_true]; exact asUInt_iff j v
  | .str, j, v => by simp only [read, describes, if_true]; exact readString_iff j v
  | .buf, j, v => by simp only [read, describes, if_true, init]; exact readBuffer_iff true j [] v
  | .fixed n, j, v => by
    simp only [read, describes, if_true, init, ofFn_zero, Option.map_eq_some_iff, readBuffer_iff]
    constructor
    · rintro ⟨l, ⟨s, ok, h1, h2⟩, h3⟩
      exact ⟨s, ok, l, h1, h2, h3.symm⟩
    · rintro ⟨s, ok, l, h1, h2, h3⟩
      exact ⟨l, ⟨s, ok, h1, h2⟩, h3.symm⟩
  | .cont t, j, v => by
    have ih := read_iff_aux t
    simp only [read, describes, init]
    cases j <;> simp
    rename_i js
    exact readAll_iff _ _ ih js v
  | .seq ts, j, v => by
    have ih := readMany_iff_aux ts
    simp only [read, describes, init]
    split
    · rename_i h0
      rw [h0]
      simp [count_zero_init ts h0 v]
    · rename_i h0
      split
      · rename_i h1
        rw [h1]
        exact ih [j] v (by simp [h1])
      · rename_i h1
        obtain ⟨c, hc⟩ : ∃ c, ts.count = c + 2 := ⟨ts.count - 2, by omega⟩
        rw [hc] at ih ⊢
        cases j <;> simp
        rename_i js
        constructor
        · rintro ⟨hl, h⟩
          exact (ih js v hl).1 h
        · intro h
          have hl := describesMany_length true ts js v h
          rw [hc] at hl
          exact ⟨hl, (ih js v hl).2 h⟩
  | .record ts, j, v => by
    simp only [read, describes, if_true, init]
    exact readNamed_iff_aux ts j v
  | .var t ts, j, .inl v => by
    have ih := read_iff_aux t
    simp only [read, describes]
    cases hid : typeId j with
    | none =>
      simp only [reduceCtorEq, false_iff, not_or]
      refine ⟨fun h => ?_, ?_⟩
      · rw [altDoc_typeId h] at hid; cases hid
      · rintro ⟨-, -, id, h, -⟩; cases h
    | some id =>
      simp only
      by_cases h0 : id = 0
      · subst h0
        rw [if_pos rfl]
        have := readOne_iff t 0 j v ih (empty_init t) hid
        rw [show (altDoc true t.isEmpty 0 j (describes true t · v) ∨
          (True ∧ v = init t ∧ ∃ id, some 0 = some id ∧ ¬ (0 ≤ id ∧ id < ((names ts).length : Int) + 1)))
          ↔ altDoc true t.isEmpty 0 j (describes true t · v) from ?_, ← this]
        · split
          · split <;> simp
          · split <;> simp
        · constructor
          · rintro (h | ⟨-, -, id, h, h'⟩)
            · exact h
            · injection h with h; subst h; exact absurd ⟨by omega, by omega⟩ h'
          · exact .inl
      · rw [if_neg h0]
        have hna : ¬ altDoc true t.isEmpty 0 j (describes true t · v) := by
          intro h; have := altDoc_typeId h; rw [hid] at this; injection this with this; omega
        split
        · rename_i h
          simp only [hna, false_or]
          constructor
          · intro h'
            obtain ⟨x, -, hx⟩ := Option.map_eq_some_iff.1 h'; cases hx
          · rintro ⟨-, -, id', h1, h2⟩
            injection h1 with h1; subst h1; exact absurd ⟨by omega, by rw [names_length]; exact h.2⟩ h2
        · rename_i h
          simp only [hna, false_or, init]
          constructor
          · intro h'
            injection h' with h'; injection h' with h'
            exact ⟨trivial, h'.symm, id, rfl, fun h'' => h ⟨by omega, by rw [← names_length]; exact h''.2⟩⟩
          · rintro ⟨-, h1, -⟩
            rw [h1]
  | .var t ts, j, .inr v => by
    have ih := readAlts_iff_aux ts
    simp only [read, describes]
    cases hid : typeId j with
    | none =>
      simp only [reduceCtorEq, false_iff]
      intro h
      obtain ⟨p, -, -, h3⟩ := describesAlts_typeId ts 1 j v h
      rw [hid] at h3; cases h3
    | some id =>
      simp only
      by_cases h : 0 < id ∧ id < (ts.length : Int) + 1
      · rw [if_neg (by omega), if_pos h]
        rw [← ih 1 (id.toNat - 1) j v (by rw [hid]; congr 1; omega)]
        constructor
        · intro h'
          obtain ⟨x, h1, h2⟩ := Option.map_eq_some_iff.1 h'
          injection h2 with h2; rw [h1, h2]
        · intro h'; rw [h']; rfl
      · have hr : ¬ describesAlts true ts 1 j v := by
          intro h'
          obtain ⟨p, h1, h2, h3⟩ := describesAlts_typeId ts 1 j v h'
          rw [hid] at h3; injection h3 with h3
          omega
        simp only [hr, iff_false]
        split
        · split
          · split <;> simp
          · split <;> simp
        · simp [init]
theorem readMany_iff_aux : (ts : Tys) → ∀ (js : List Json) (v : members ts), js.length = ts.count →
    (readMany ts js (initAll ts) = some v ↔ describesMany true ts js v)
  | .nil, js, v, hl => by
    simp only [Tys.count] at hl
    simp only [readMany, describesMany]
    exact ⟨fun _ => List.length_eq_zero_iff.1 hl, fun _ => trivial⟩
  | .cons _ t ts, js, v, hl => by
    have ih := read_iff_aux t
    have ihs := readMany_iff_aux ts
    unfold Tys.count at hl
    unfold readMany describesMany initAll
    split
    · rename_i he
      rw [if_pos he] at hl
      rw [← ihs js v.2 hl, ← empty_init t he v.1]
      constructor
      · intro h
        obtain ⟨r, h1, h2⟩ := Option.map_eq_some_iff.1 h
        rw [h1, ← h2]
      · intro h
        simp only [h]; rfl
    · rename_i he
      rw [if_neg he] at hl
      cases js with
      | nil => simp
      | cons j js =>
        simp only [List.length_cons] at hl
        have hl : js.length = ts.count := by omega
        constructor
        · intro h
          refine ⟨j, js, rfl, ?_⟩
          cases hr : read t j (init t) with
          | none => simp [hr] at h
          | some a =>
            simp only [hr] at h
            obtain ⟨r, h1, h2⟩ := Option.map_eq_some_iff.1 h
            subst h2
            exact ⟨(ih j a).1 hr, (ihs js r hl).1 h1⟩
        · rintro ⟨j', js', h0, h1, h2⟩
          injection h0 with h0 h0'
          subst h0; subst h0'
          simp only [(ih _ _).2 h1, (ihs _ _ hl).2 h2]
          rfl
theorem readNamed_iff_aux : (ts : Tys) → ∀ (j : Json) (v : members ts),
    (readNamed ts j (initAll ts) = some v ↔ describesNamed true ts j v)
  | .nil, j, v => by simp [readNamed, describesNamed]
  | .cons name t ts, j, v => by
    have ih := read_iff_aux t
    have ihs := readNamed_iff_aux ts
    unfold readNamed describesNamed initAll
    cases hm : member j name with
    | none => simp
    | some m =>
      simp only
      cases hr : read t m (init t) with
      | none =>
        simp only [reduceCtorEq, false_iff]
        rintro ⟨⟨m', h, h'⟩, -⟩
        injection h with h; subst h
        rw [(ih _ _).2 h'] at hr; cases hr
      | some a =>
        simp only
        constructor
        · intro h
          obtain ⟨r, h1, h2⟩ := Option.map_eq_some_iff.1 h
          subst h2
          exact ⟨⟨m, rfl, (ih _ _).1 hr⟩, (ihs _ _).1 h1⟩
        · rintro ⟨⟨m', h, h'⟩, h2⟩
          injection h with h; subst h
          rw [(ih _ _).2 h'] at hr
          injection hr with hr
          rw [(ihs _ _).2 h2, ← hr]; rfl
theorem readAlts_iff_aux : (ts : Tys) → ∀ (i k : Nat) (j : Json) (v : alts ts),
    typeId j = some ((i + k : Nat) : Int) → (readAlts ts k j = some v ↔ describesAlts true ts i j v)
  | .nil, _, _, _, v, _ => v.elim
  | .cons _ t ts, i, 0, j, .inl v, hid => by
    have := readOne_iff t i j v (read_iff_aux t) (empty_init t) hid
    simp only [readAlts, describesAlts]
    rw [← this]
    split
    · split <;> simp
    · split <;> simp
  | .cons _ t ts, i, 0, j, .inr v, hid => by
    simp only [readAlts, describesAlts]
    constructor
    · split
      · split <;> simp
      · split <;> simp
    · intro h
      obtain ⟨p, h1, -, h3⟩ := describesAlts_typeId ts (i + 1) j v h
      rw [hid] at h3; injection h3 with h3; omega
  | .cons _ t ts, i, k + 1, j, .inl v, hid => by
    simp only [readAlts, describesAlts]
    constructor
    · intro h
      obtain ⟨x, -, hx⟩ := Option.map_eq_some_iff.1 h; cases hx
    · intro h
      have := altDoc_typeId h
      rw [hid] at this; injection this with this; omega
  | .cons _ t ts, i, k + 1, j, .inr v, hid => by
    simp only [readAlts, describesAlts]
    rw [← readAlts_iff_aux ts (i + 1) k j v (by rw [hid]; congr 1; omega)]
    constructor
    · intro h
      obtain ⟨x, h1, hx⟩ := Option.map_eq_some_iff.1 h
      injection hx with hx; rw [h1, hx]
    · intro h; rw [h]; rfl
end

end Nbdl.Bind
