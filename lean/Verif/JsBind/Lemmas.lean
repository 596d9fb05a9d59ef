import Verif.JsBind.Text
/-!
# What the reader makes of what was written
-/
namespace Nbdl.JsBind
open Nbdl.Bind (Ty Tys denote members alts init initAll Json Name encodeText)
open Spec

/-- How the parts of a value are written: what the binder in the browser and the server have in common. -/
structure Codec where
  none : Js
  uint : BitVec 32 → Js
  str : List Byte → Js
  cont : List Js → Js
  obj : List (List Unit16 × Js) → Js
  key : Name → List Unit16

/-- A sequence. -/
def Codec.pack (c : Codec) : List Js → Js
  | [] => c.none
  | [j] => j
  | js => .arr js

mutual
def enc (c : Codec) : (t : Ty) → denote t → Js
  | .empty, _ => c.none
  | .uint, n => c.uint n
  | .int, n => .num n.toInt
  | .enum, n => .num n.toInt
  | .str, s => c.str s
  | .buf, b => c.str (encodeText b)
  | .fixed _, b => c.str (encodeText (List.ofFn b))
  | .cont t, vs => c.cont (vs.map (enc c t))
  | .seq ts, v => c.pack (encMany c ts v)
  | .record ts, v => c.obj (encNamed c ts v)
  | .var t _, .inl v => altJs t 0 (enc c t v)
  | .var _ ts, .inr v => encAlts c ts 1 v
def encMany (c : Codec) : (ts : Tys) → members ts → List Js
  | .nil, _ => []
  | .cons _ t ts, v => if t.isEmpty then encMany c ts v.2 else enc c t v.1 :: encMany c ts v.2
def encNamed (c : Codec) : (ts : Tys) → members ts → List (List Unit16 × Js)
  | .nil, _ => []
  | .cons n t ts, v => (c.key n, enc c t v.1) :: encNamed c ts v.2
def encAlts (c : Codec) : (ts : Tys) → Nat → alts ts → Js
  | .cons _ t _, i, .inl v => altJs t i (enc c t v)
  | .cons _ _ ts, i, .inr v => encAlts c ts (i + 1) v
end

/-- What must hold of the parts. -/
structure Codec.Good (c : Codec) (e : Engine) (d : Demands) : Prop where
  uint : ∀ n, toInt32 e (c.uint n) = n ∧ d.uint n
  enum : ∀ n, d.enum n
  str : ∀ s, IsText s → (readText e (c.str s) = some s ↔ d.str s)
  base64 : ∀ b, readText e (c.str (encodeText b)) = some (encodeText b)
  contNil : (lengthOf e (c.cont []) = some 0 ∧ d.cont 0) ∨ (lengthOf e (c.cont []) = Option.none ∧ ¬ d.cont 0)
  cont : ∀ js, js ≠ [] → c.cont js = .arr js ∧ d.cont js.length
  obj : ∀ ms, ms ≠ [] → c.obj ms = .obj ms
  key : ∀ n, Ascii n ∧ 0#8 ∉ n → c.key n = utf8ToString e n

/-! ### Parts -/

theorem ofInt_toInt (n : BitVec 32) : BitVec.ofInt 32 n.toInt = n := by simp

theorem item_arr (js : List Js) (i : Nat) : item (.arr js) i = some (js[i]?.getD .undefined) := rfl

theorem readAll_arr {α : Type} (f : Js → Option α) (pre js : List Js) (vs : List α) (hl : js.length = vs.length) :
    readAll f (.arr (pre ++ js)) pre.length js.length = some vs ↔ ∀ i (h : i < vs.length), f (js[i]'(by omega)) = some vs[i] := by
  induction js generalizing pre vs with
  | nil =>
    have : vs = [] := by simpa using hl.symm
    subst this
    simp [readAll]
  | cons j js ih =>
    cases vs with
    | nil => simp at hl
    | cons v vs =>
      have hl' : js.length = vs.length := by simpa using hl
      have ih := ih (pre ++ [j]) vs hl'
      rw [List.append_assoc, List.singleton_append, List.length_append, List.length_singleton] at ih
      have hi : (pre ++ j :: js)[pre.length]? = some j := by simp
      simp only [List.length_cons, readAll, item_arr, hi, Option.getD_some]
      constructor
      · intro h i hi
        cases hf : f j with
        | none => simp [hf] at h
        | some a =>
          simp only [hf, Option.map_eq_some_iff] at h
          obtain ⟨r, hr, hc⟩ := h
          injection hc with h1 h2
          subst h1; subst h2
          cases i with
          | zero => simpa using hf
          | succ i => simpa using ih.1 hr i (by simpa using hi)
      · intro h
        have h0 := h 0 (by simp)
        simp only [List.getElem_cons_zero] at h0
        have hr := ih.2 fun i hi => by
          have := h (i + 1) (by simpa using hi)
          simp only [List.getElem_cons_succ] at this
          exact this
        simp [h0, hr]

theorem readAll_map {α : Type} (f : Js → Option α) (w : α → Js) (P : α → Prop) (vs : List α)
    (h : ∀ v ∈ vs, (f (w v) = some v ↔ P v)) :
    readAll f (.arr (vs.map w)) 0 vs.length = some vs ↔ ∀ v ∈ vs, P v := by
  have h1 := readAll_arr f [] (vs.map w) vs (by simp)
  simp only [List.nil_append, List.length_nil, List.length_map] at h1
  rw [h1]
  constructor
  · intro h2 v hv
    obtain ⟨i, hi, rfl⟩ := List.getElem_of_mem hv
    have := h2 i hi
    simp only [List.getElem_map] at this
    exact (h _ hv).1 this
  · intro h2 i hi
    simp only [List.getElem_map]
    exact (h _ (List.getElem_mem hi)).2 (h2 _ (List.getElem_mem hi))

theorem toInt_ofNat (i : Nat) (h : i < 2 ^ 31) : (BitVec.ofInt 32 (i : Int)).toInt = i := by
  rw [BitVec.toInt_ofInt]
  have : (i : Int) < 2 ^ 31 := by exact_mod_cast h
  simp only [Int.bmod]
  split <;> omega

theorem typeId_alt (e : Engine) (t : Ty) (i : Nat) (j : Js) (h : i < 2 ^ 31) : typeId e (altJs t i j) = i := by
  unfold altJs
  split <;> simp only [typeId, toInt32, List.getElem?_cons_zero, Option.getD_some, toInt_ofNat i h]

theorem item_alt (t : Ty) (i : Nat) (j : Js) (h : t.isEmpty = false) :
    item (altJs t i j) 0 = some (.num i) ∧ item (altJs t i j) 1 = some j := by
  simp [altJs, h, item]

theorem lookup_key (pre post : List (List Unit16 × Js)) (k : List Unit16) (j : Js) (h : k ∉ pre.map (·.1)) :
    lookup (pre ++ (k, j) :: post) k = j := by
  induction pre with
  | nil => simp [lookup]
  | cons p pre ih =>
    simp only [List.map_cons, List.mem_cons, not_or] at h
    have hp : ¬ p.1 = k := fun h' => h.1 h'.symm
    have ih := ih h.2
    simp only [lookup, List.cons_append] at ih ⊢
    rw [List.find?_cons_of_neg (by simpa using hp)]
    exact ih

theorem encMany_length (c : Codec) : (ts : Tys) → (v : members ts) → (encMany c ts v).length = ts.count
  | .nil, _ => rfl
  | .cons _ t ts, v => by
    simp only [encMany, Tys.count]
    split
    · exact encMany_length c ts v.2
    · simp [encMany_length c ts v.2]

theorem empty_eq (t : Ty) (h : t.isEmpty = true) (v w : denote t) : v = w := by
  rw [Bind.empty_init t h v, Bind.empty_init t h w]

theorem empty_holds (d : Demands) (t : Ty) (h : t.isEmpty = true) (v : denote t) : Holds d t v := by
  cases t <;> simp [Ty.isEmpty] at h
  unfold Holds; trivial

theorem holds_count (d : Demands) : (ts : Tys) → ts.count = 0 → (v : members ts) → HoldsAll d ts v
  | .nil, _, _ => trivial
  | .cons _ t ts, h, v => by
    simp only [Tys.count] at h
    split at h
    · rename_i he
      exact ⟨empty_holds d t he v.1, holds_count d ts h v.2⟩
    · omega

/-! ### The whole -/

section
variable {c : Codec} {e : Engine} {d : Demands}

theorem alt_read (he : Sane e) (t : Ty) (i : Nat) (v : denote t)
    (ih : read e t (enc c t v) (init t) = some v ↔ Holds d t v) :
    ((if t.isEmpty then some (Sum.inl (β := α) (init t))
      else match item (altJs t i (enc c t v)) 0, item (altJs t i (enc c t v)) 1 with
        | some _, some x => (read e t x (init t)).map .inl
        | _, _ => none) = some (.inl v)) ↔ Holds d t v := by
  cases h : t.isEmpty with
  | true => simp [empty_eq t h (init t) v, empty_holds d t h v]
  | false =>
    obtain ⟨h1, h2⟩ := item_alt t i (enc c t v) h
    simp only [h1, h2, Bool.false_eq_true, if_false]
    rw [← ih]
    cases read e t (enc c t v) (init t) <;> simp

mutual
theorem enc_read (he : Sane e) (hc : c.Good e d) : (t : Ty) → Wf t → (v : denote t) → Holds texts t v →
    (read e t (enc c t v) (init t) = some v ↔ Holds d t v)
  | .empty, _, v, _ => by simp [read, Holds]
  | .uint, _, v, _ => by simp [read, enc, Holds, hc.uint v]
  | .int, _, v, _ => by simp [read, enc, Holds, toInt32]
  | .enum, _, v, _ => by simp [read, enc, Holds, toInt32, hc.enum v]
  | .str, _, v, hv => by
    simp only [read, enc, Holds]
    exact hc.str v hv
  | .buf, _, v, hv => by
    simp only [Holds] at hv
    simp only [read, enc, readBuffer, hc.base64, Bind.decode_encodeText v _ hv, Holds, hv]
  | .fixed n, hn, v, _ => by
    have hl : (List.ofFn v).length = n := by simp
    have := Bind.decode_encodeText_fixed (List.ofFn v) (List.ofFn (init (.fixed n))) (by rw [hl]; exact hn) (by simp)
    simp only [read, enc, readBuffer, hc.base64, this, Holds, Option.map_some, Bind.getD_ofFn]
  | .cont t, hw, vs, hv => by
    simp only [Holds] at hv
    have ih : ∀ v ∈ vs, (read e t (enc c t v) (init t) = some v ↔ Holds d t v) :=
      fun v hm => enc_read he hc t hw v (hv.2 v hm)
    have hall := readAll_map (fun j => read e t j (init t)) (enc c t) (Holds d t) vs ih
    simp only [read, enc, Holds]
    cases vs with
    | nil =>
      simp only [List.map_nil, List.length_nil, List.not_mem_nil, false_implies, implies_true, and_true]
      rcases hc.contNil with ⟨h1, h2⟩ | ⟨h1, h2⟩
      · rw [h1]; simp [readAll, h2]
      · rw [h1]; simp [h2]
    | cons v vs =>
      obtain ⟨h1, h2⟩ := hc.cont ((v :: vs).map (enc c t)) (by simp)
      rw [h1]
      simp only [List.length_map] at h2
      have hn : ¬ (((v :: vs).length : Int) < 0) := by omega
      simp only [lengthOf, List.length_map, hn, if_false, Int.toNat_natCast, hall, h2, true_and]
  | .seq ts, hw, v, hv => by
    simp only [read, enc, Holds]
    have hl := encMany_length c ts v
    by_cases h0 : ts.count = 0
    · simp only [h0, if_true]
      have h1 : init (.seq ts) = v := (Bind.count_zero_init ts h0 v).symm
      simp [holds_count d ts h0 v, h1]
    · by_cases h1 : ts.count = 1
      · simp only [h1, Nat.succ_ne_zero, if_false, if_true]
        rw [h1] at hl
        obtain ⟨j, hj⟩ := List.length_eq_one_iff.1 hl
        have := encOne_read he hc ts hw v hv h1 j hj
        rw [hj]
        simpa [Codec.pack, init] using this
      · simp only [h0, h1, if_false]
        have hp : c.pack (encMany c ts v) = .arr ([] ++ encMany c ts v) := by
          generalize encMany c ts v = l at hl
          match l, hl with
          | [], hl => simp at hl; omega
          | [_], hl => simp at hl; omega
          | _ :: _ :: _, _ => rfl
        rw [hp]
        simpa [init] using encMany_read he hc ts hw v hv []
  | .record .nil, _, v, _ => by simp [read, readNamed, Holds, HoldsAll]
  | .record (.cons n t ts), hw, v, hv => by
    simp only [read, enc, Holds]
    have := encNamed_read he hc (.cons n t ts) hw.2 v hv hw.1 [] (by simp)
    rw [hc.obj _ (by simp [encNamed])]
    simpa [init] using this
  | .var t ts, hw, .inl v, hv => by
    have ht := typeId_alt e t 0 (enc c t v) (by omega)
    simp only [read, enc, ht, Int.ofNat_eq_natCast, Int.natCast_zero, if_true, Holds]
    exact alt_read he t 0 v (enc_read he hc t hw.2.1 v hv)
  | .var t ts, hw, .inr v, hv => by
    obtain ⟨k, hk, ht, hr⟩ := encAlts_read he hc ts hw.2.2 v hv 1 (by have := hw.1; rw [Bind.names_length] at this; omega)
    have hlen := hw.1
    simp only [read, enc, ht, Holds]
    have h0 : ¬ (((1 + k : Nat) : Int) = 0) := by omega
    have h1 : 0 < ((1 + k : Nat) : Int) ∧ ((1 + k : Nat) : Int) < (ts.length : Int) + 1 := by omega
    simp only [h0, if_false, h1, and_self, if_true, Int.toNat_natCast, Nat.add_sub_cancel_left]
    rw [← hr]
    cases readAlts e ts k (encAlts c ts 1 v) <;> simp
theorem encOne_read (he : Sane e) (hc : c.Good e d) : (ts : Tys) → WfAll ts → (v : members ts) →
    HoldsAll texts ts v → ts.count = 1 → (j : Js) → encMany c ts v = [j] →
    (readOne e ts j (initAll ts) = some v ↔ HoldsAll d ts v)
  | .nil, _, v, _, h, _, _ => by simp [Tys.count] at h
  | .cons _ t ts, hw, v, hv, h, j, hj => by
    simp only [Tys.count] at h
    simp only [encMany] at hj
    simp only [readOne, HoldsAll, initAll]
    cases he' : t.isEmpty with
    | true =>
      simp only [he', if_true] at h hj ⊢
      have ih := encOne_read he hc ts hw.2 v.2 hv.2 h j hj
      rw [← ih]
      have h1 : (init t, v.2) = v := by rw [empty_eq t he' (init t) v.1]
      simp only [empty_holds d t he' v.1, true_and, Option.map_eq_some_iff]
      constructor
      · rintro ⟨r, hr, rfl⟩; exact hr
      · intro hr; exact ⟨_, hr, h1⟩
    | false =>
      simp only [he', Bool.false_eq_true, if_false] at h hj ⊢
      have h0 : ts.count = 0 := by omega
      injection hj with hj1 hj2
      subst hj1
      have ih := enc_read he hc t hw.1 v.1 hv.1
      rw [← ih]
      have h1 : v.2 = initAll ts := Bind.count_zero_init ts h0 v.2
      simp only [holds_count d ts h0 v.2, and_true, Option.map_eq_some_iff]
      constructor
      · rintro ⟨r, hr, rfl⟩; exact hr
      · intro hr; exact ⟨_, hr, by rw [← h1]⟩
theorem encMany_read (he : Sane e) (hc : c.Good e d) : (ts : Tys) → WfAll ts → (v : members ts) →
    HoldsAll texts ts v → (pre : List Js) →
    (readMany e ts (.arr (pre ++ encMany c ts v)) pre.length (initAll ts) = some v ↔ HoldsAll d ts v)
  | .nil, _, v, _, _ => by simp [readMany, HoldsAll]
  | .cons _ t ts, hw, v, hv, pre => by
    simp only [readMany, HoldsAll, initAll, encMany]
    cases he' : t.isEmpty with
    | true =>
      simp only [if_true]
      have ih := encMany_read he hc ts hw.2 v.2 hv.2 pre
      rw [← ih]
      have h1 : (init t, v.2) = v := by rw [empty_eq t he' (init t) v.1]
      simp only [empty_holds d t he' v.1, true_and, Option.map_eq_some_iff]
      constructor
      · rintro ⟨r, hr, rfl⟩; exact hr
      · intro hr; exact ⟨_, hr, h1⟩
    | false =>
      have ih1 := enc_read he hc t hw.1 v.1 hv.1
      have ih2 := encMany_read he hc ts hw.2 v.2 hv.2 (pre ++ [enc c t v.1])
      rw [List.append_assoc, List.singleton_append, List.length_append, List.length_singleton] at ih2
      have hi : (pre ++ enc c t v.1 :: encMany c ts v.2)[pre.length]? = some (enc c t v.1) := by simp
      simp only [Bool.false_eq_true, if_false, item_arr, hi, Option.getD_some]
      rw [← ih1, ← ih2]
      cases hr : read e t (enc c t v.1) (init t) with
      | none => simp
      | some x =>
        simp only [Option.map_eq_some_iff, Option.some.injEq]
        constructor
        · rintro ⟨r, hr', rfl⟩; exact ⟨rfl, hr'⟩
        · rintro ⟨rfl, hr'⟩; exact ⟨_, hr', rfl⟩
theorem encNamed_read (he : Sane e) (hc : c.Good e d) : (ts : Tys) → WfAll ts → (v : members ts) →
    HoldsAll texts ts v → NamesOk (Bind.Spec.names ts) → (pre : List (List Unit16 × Js)) →
    (∀ n ∈ Bind.Spec.names ts, utf8ToString e n ∉ pre.map (·.1)) →
    (readNamed e ts (.obj (pre ++ encNamed c ts v)) (initAll ts) = some v ↔ HoldsAll d ts v)
  | .nil, _, v, _, _, _, _ => by simp [readNamed, HoldsAll]
  | .cons n t ts, hw, v, hv, hn, pre, hp => by
    have hnn := hn.2 n (by simp [Bind.Spec.names])
    have hk := hc.key n hnn
    have ih1 := enc_read he hc t hw.1 v.1 hv.1
    have hnd := List.nodup_cons.1 hn.1
    have ih2 := encNamed_read he hc ts hw.2 v.2 hv.2 ⟨hnd.2, fun m hm => hn.2 m (List.mem_cons_of_mem _ hm)⟩
      (pre ++ [(utf8ToString e n, enc c t v.1)])
      (by
        intro m hm
        simp only [List.map_append, List.map_cons, List.map_nil, List.mem_append, List.mem_singleton, not_or]
        refine ⟨hp m (List.mem_cons_of_mem _ hm), fun h => ?_⟩
        have := key_inj he (hn.2 m (List.mem_cons_of_mem _ hm)) hnn h
        subst this
        exact hnd.1 hm)
    rw [List.append_assoc, List.singleton_append] at ih2
    simp only [readNamed, HoldsAll, initAll, encNamed, hk, prop,
      lookup_key pre _ (utf8ToString e n) _ (hp n (by simp [Bind.Spec.names]))]
    rw [← ih1, ← ih2]
    cases hr : read e t (enc c t v.1) (init t) with
    | none => simp
    | some x =>
      simp only [Option.map_eq_some_iff, Option.some.injEq]
      constructor
      · rintro ⟨r, hr', rfl⟩; exact ⟨rfl, hr'⟩
      · rintro ⟨rfl, hr'⟩; exact ⟨_, hr', rfl⟩
theorem encAlts_read (he : Sane e) (hc : c.Good e d) : (ts : Tys) → WfAll ts → (v : alts ts) → HoldsAlt texts ts v →
    (i : Nat) → i + ts.length < 2 ^ 31 → ∃ k, k < ts.length ∧ typeId e (encAlts c ts i v) = ((i + k : Nat) : Int) ∧
    (readAlts e ts k (encAlts c ts i v) = some v ↔ HoldsAlt d ts v)
  | .nil, _, v, _, _, _ => v.elim
  | .cons _ t ts, hw, .inl v, hv, i, hi => by
    refine ⟨0, by simp [Tys.length], ?_, ?_⟩
    · simp only [encAlts]
      exact typeId_alt e t i _ (by omega)
    · simp only [encAlts, readAlts, HoldsAlt]
      exact alt_read he t i v (enc_read he hc t hw.1 v hv)
  | .cons _ t ts, hw, .inr v, hv, i, hi => by
    obtain ⟨k, hk, ht, hr⟩ := encAlts_read he hc ts hw.2 v hv (i + 1) (by simp [Tys.length] at hi; omega)
    refine ⟨k + 1, by simp [Tys.length, hk], ?_, ?_⟩
    · simp only [encAlts]
      rw [ht]
      congr 1
      omega
    · simp only [encAlts, readAlts, HoldsAlt]
      rw [← hr]
      cases readAlts e ts k (encAlts c ts (i + 1) v) <;> simp
end
end

end Nbdl.JsBind
