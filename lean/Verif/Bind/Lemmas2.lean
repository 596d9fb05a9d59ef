import Verif.Bind.Lemmas
namespace Nbdl.Bind
open Spec

theorem decode2_true_length {t out o : List Byte} {b : Bool} (h : Base64.decode2 true t out = .ok (b, o)) :
    o.length = Base64.targetDecodedLength t := by
  unfold Base64.decode2 Base64.prepare at h
  simp only [if_true] at h
  have hl : (out.take (Base64.targetDecodedLength t)
      ++ List.replicate (Base64.targetDecodedLength t - out.length) 0#8).length
      = Base64.targetDecodedLength t := by simp; omega
  generalize out.take (Base64.targetDecodedLength t)
      ++ List.replicate (Base64.targetDecodedLength t - out.length) 0#8 = buf at h hl
  split at h
  · cases h
  · simp only [Bool.true_eq_false, if_false] at h
    split at h
    · injection h with h; injection h with h1 h2; rw [← h2, hl]
    · split at h
      · injection h with h; injection h with h1 h2; rw [← h2, hl]
      · unfold Base64.decodeInto at h
        simp only at h
        split at h
        · cases h
        · simp only [Cpp.map] at h
          injection h with h; injection h with h1 h2
          rw [← h2]; simp; omega

theorem decode2_fixed {t out : List Byte} (h : out.length = Base64.targetDecodedLength t) :
    Base64.decode2 false t out = Base64.decode2 true t out := by
  unfold Base64.decode2 Base64.prepare
  simp only [Bool.false_eq_true, if_false, if_true]
  rw [show out.take (Base64.targetDecodedLength t)
      ++ List.replicate (Base64.targetDecodedLength t - out.length) 0#8 = out from ?_]
  · simp [h]
  · rw [h, Nat.sub_self]; simp [← h]

theorem encodeText_eq (b : List Byte) (h : 4 * b.length < 2 ^ 31) : encodeText b = Base64.Spec.encode b := by
  unfold encodeText
  rw [(Base64.encode_is_rfc4648 b h).1]

theorem encodeText_big (b : List Byte) (h : ¬ 4 * b.length < 2 ^ 31) : encodeText b = [] := by
  unfold encodeText
  rw [show Base64.encode false b = .ub by unfold Base64.encode; rw [if_pos (by omega)]]

theorem encodeText_nul (b : List Byte) : 0#8 ∉ encodeText b := by
  by_cases h : 4 * b.length < 2 ^ 31
  · unfold encodeText
    rw [Base64.encode_eq false b h]
    simp only [List.mem_append, List.mem_replicate, not_or]
    refine ⟨fun hm => ?_, fun hm => absurd hm.2 (by decide)⟩
    have := Base64.encodeWrites_alpha false b _ hm
    exact absurd this (by decide +kernel)
  · rw [encodeText_big b h]; simp

theorem takeWhile_nul {s : List Byte} (h : 0#8 ∉ s) : s.takeWhile (· ≠ 0#8) = s := by
  induction s with
  | nil => rfl
  | cons a s ih =>
    rw [List.takeWhile_cons]
    have h1 : a ≠ 0#8 := fun h' => h (by simp [h'])
    rw [if_pos (by simpa using h1), ih (fun h' => h (by simp [h']))]

theorem takeWhile_nul_iff (s : List Byte) : s = s.takeWhile (· ≠ 0#8) ↔ 0#8 ∉ s := by
  constructor
  · intro h hm
    rw [h] at hm
    have : ∀ l : List Byte, 0#8 ∉ l.takeWhile (· ≠ 0#8) := by
      intro l
      induction l with
      | nil => simp
      | cons a l ih =>
        rw [List.takeWhile_cons]
        split
        · rename_i ha
          simp only [List.mem_cons, not_or]
          exact ⟨fun h' => by simp [← h'] at ha, ih⟩
        · simp
    exact this s hm
  · exact fun h => (takeWhile_nul h).symm

theorem decode_encodeText (b out : List Byte) (h : 4 * b.length < 2 ^ 31) :
    Base64.decode2 true (encodeText b) out = .ok (true, b) := by
  obtain ⟨t, h1, -, h2⟩ := Base64.roundtrip b h
  unfold encodeText
  rw [h1]; exact h2 out

theorem decode_encodeText_fixed (b out : List Byte) (h : 4 * b.length < 2 ^ 31) (hl : out.length = b.length) :
    Base64.decode2 false (encodeText b) out = .ok (true, b) := by
  have := decode_encodeText b out h
  rw [decode2_fixed, this]
  rw [hl, decode2_true_length this]

theorem decode_empty_true (out : List Byte) : Base64.decode2 true [] out = .ok (true, []) := by
  simp [Base64.decode2, Base64.prepare, Base64.targetDecodedLength, Base64.sourceLengthUnpadded]

theorem getD_ofFn {n : Nat} (b : Fin n → Byte) : (fun i : Fin n => (List.ofFn b).getD i 0#8) = b := by
  funext i
  simp [List.getD_eq_getElem?_getD]

theorem all2_map {α : Type} (R : Json → α → Prop) (P : α → Prop) (f : α → Json) (vs : List α)
    (h : ∀ v, R (f v) v ↔ P v) : All2 R (vs.map f) vs ↔ ∀ v ∈ vs, P v := by
  induction vs with
  | nil => simp [All2]
  | cons v vs ih => simp [All2, h, ih]

theorem altDoc_write (t : Ty) (i : Nat) (v : denote t)
    (ih : describes true t (write t v) v ↔ Kept t v) (he : t.isEmpty = true → Kept t v) :
    altDoc true t.isEmpty i (altJson t i (write t v)) (describes true t · v) ↔ i < 2 ^ 31 ∧ Kept t v := by
  unfold altDoc altJson
  cases h : t.isEmpty with
  | true => simp [he h]
  | false => simp [ih]

theorem empty_kept (t : Ty) (v : denote t) (h : t.isEmpty = true) : Kept t v := by
  cases t <;> simp [Ty.isEmpty] at h
  unfold Kept; trivial

theorem typeId_alt (t : Ty) (i : Nat) (j : Json) (id : Int) (h : typeId (altJson t i j) = some id) : id = i := by
  unfold altJson at h
  split at h
  · simp only [typeId] at h
    split at h
    · injection h with h; exact h.symm
    · cases h
  · simp only [typeId] at h
    split at h
    · injection h with h; exact h.symm
    · cases h

theorem member_append (pre post : List (Name × Json)) (n : Name) (j : Json) (h : n ∉ pre.map (·.1)) :
    member (.obj (pre ++ (n, j) :: post)) n = some j := by
  simp only [member]
  rw [List.find?_append, List.find?_eq_none.2]
  · simp
  · intro x hx
    simp only [decide_eq_true_eq]
    intro he
    exact h (List.mem_map.2 ⟨x, hx, he⟩)

theorem writeMany_length : (ts : Tys) → (v : members ts) → (writeMany ts v).length = ts.count
  | .nil, _ => rfl
  | .cons _ t ts, v => by
    unfold writeMany Tys.count
    split
    · exact writeMany_length ts v.2
    · simp [writeMany_length ts v.2]

theorem kept_of_count : (ts : Tys) → (v : members ts) → ts.count = 0 → KeptAll ts v
  | .nil, _, _ => trivial
  | .cons _ t ts, v, h => by
    unfold Tys.count at h
    split at h
    · rename_i he
      exact ⟨empty_kept t v.1 he, kept_of_count ts v.2 h⟩
    · omega

mutual
theorem write_iff_aux : (t : Ty) → Wf t → ∀ v : denote t, describes true t (write t v) v ↔ Kept t v
  | .empty, _, v => by simp [write, describes, Kept]
  | .uint, _, v => by simp [write, describes, Kept]
  | .int, _, v => by simp [write, describes, Kept]
  | .enum, _, v => by
    simp only [write, describes, Kept, if_true, Json.num.injEq]
    rw [BitVec.toInt_eq_toNat_cond]
    split
    · omega
    · have := v.isLt; omega
  | .str, _, v => by
    simp only [write, describes, Kept, if_true]
    constructor
    · rintro ⟨s, h1, h2⟩
      injection h1 with h1; subst h1
      exact (takeWhile_nul_iff v).1 h2
    · exact fun h => ⟨v, rfl, (takeWhile_nul_iff v).2 h⟩
  | .buf, _, v => by
    simp only [write, describes, Kept, if_true]
    constructor
    · rintro ⟨s, ok, h1, h2⟩
      injection h1 with h1; subst h1
      rw [takeWhile_nul (encodeText_nul v)] at h2
      apply Decidable.byContradiction
      intro hb
      rw [encodeText_big v hb, decode_empty_true] at h2
      injection h2 with h2; injection h2 with _ h2
      rw [← h2] at hb
      simp at hb
    · intro h
      exact ⟨_, true, rfl, by rw [takeWhile_nul (encodeText_nul v)]; exact decode_encodeText v [] h⟩
  | .fixed n, hn, b => by
    simp only [write, describes, Kept, if_true]
    have hl : (List.ofFn b).length = n := by simp
    simp only [iff_true]
    refine ⟨_, true, List.ofFn b, rfl, ?_, (getD_ofFn b).symm⟩
    rw [takeWhile_nul (encodeText_nul _)]
    exact decode_encodeText_fixed _ _ (by rw [hl]; exact hn) (by simp)
  | .cont t, hw, vs => by
    have ih := write_iff_aux t hw
    simp only [write, describes, Kept]
    cases vs with
    | nil => simp
    | cons v vs =>
      simp only [List.isEmpty_cons, Bool.false_eq_true, if_false, ne_eq, reduceCtorEq, not_false_eq_true,
        true_and]
      rw [← all2_map (describes true t) (Kept t) (write t) (v :: vs) ih]
      constructor
      · rintro ⟨js, h, h'⟩
        injection h with h
        rw [h]; exact h'
      · exact fun h => ⟨_, rfl, h⟩
  | .seq ts, hw, v => by
    have ih := writeMany_iff_aux ts hw v
    have hl := writeMany_length ts v
    simp only [write, describes, Kept]
    by_cases h0 : ts.count = 0
    · rw [h0]
      simp [kept_of_count ts v h0]
    · by_cases h1 : ts.count = 1
      · rw [h1] at hl ⊢
        obtain ⟨j, hj⟩ := List.length_eq_one_iff.1 hl
        rw [hj] at ih ⊢
        exact ih
      · obtain ⟨c, hc⟩ : ∃ c, ts.count = c + 2 := ⟨ts.count - 2, by omega⟩
        rw [hc] at hl ⊢
        have hp : pack (writeMany ts v) = .arr (writeMany ts v) := by
          generalize writeMany ts v = l at hl
          match l, hl with
          | _ :: _ :: _, _ => rfl
        rw [hp, ← ih]
        constructor
        · rintro ⟨js, h, h'⟩
          injection h with h
          rw [h]; exact h'
        · exact fun h => ⟨_, rfl, h⟩
  | .record .nil, _, v => by simp [describes, Kept, KeptAll, describesNamed]
  | .record (.cons n t ts), hw, v => by
    have ih1 := write_iff_aux t hw.2.1
    have ih2 := writeNamed_iff_aux ts hw.2.2 (List.nodup_cons.1 hw.1).2 [(n, write t v.1)]
      (by intro x hx; simp; rintro rfl; exact (List.nodup_cons.1 hw.1).1 hx) v.2
    simp only [write, describes, Kept, if_true, describesNamed, KeptAll]
    rw [← ih1 v.1, ← ih2]
    have hm := member_append [] (writeNamed ts v.2) n (write t v.1) (by simp)
    simp only [List.nil_append] at hm
    rw [hm]
    simp
  | .var t ts, hw, .inl v => by
    simp only [write, describes, Kept]
    rw [altDoc_write t 0 v (write_iff_aux t hw.1 v) (empty_kept t v)]
    constructor
    · rintro (h | ⟨-, -, id, h, h'⟩)
      · exact h.2
      · have := typeId_alt t 0 _ id h
        omega
    · exact fun h => .inl ⟨by omega, h⟩
  | .var t ts, hw, .inr v => by
    simp only [write, describes, Kept]
    exact writeAlts_iff_aux ts hw.2 1 v
theorem writeMany_iff_aux : (ts : Tys) → WfAll ts → ∀ v : members ts,
    (describesMany true ts (writeMany ts v) v ↔ KeptAll ts v)
  | .nil, _, v => by simp [describesMany, writeMany, KeptAll]
  | .cons _ t ts, hw, v => by
    have ih1 := write_iff_aux t hw.1 v.1
    have ih2 := writeMany_iff_aux ts hw.2 v.2
    unfold describesMany writeMany KeptAll
    split
    · rename_i he
      rw [ih2]
      exact ⟨fun h => ⟨empty_kept t v.1 he, h⟩, fun h => h.2⟩
    · rw [← ih1, ← ih2]
      constructor
      · rintro ⟨j, js, h, h1, h2⟩
        injection h with h h'
        subst h; subst h'
        exact ⟨h1, h2⟩
      · exact fun h => ⟨_, _, rfl, h.1, h.2⟩
theorem writeNamed_iff_aux : (ts : Tys) → WfAll ts → (names ts).Nodup → (pre : List (Name × Json)) →
    (∀ n ∈ names ts, n ∉ pre.map (·.1)) → ∀ v : members ts,
    (describesNamed true ts (.obj (pre ++ writeNamed ts v)) v ↔ KeptAll ts v)
  | .nil, _, _, _, _, v => by simp [describesNamed, KeptAll]
  | .cons n t ts, hw, hn, pre, hp, v => by
    have ih1 := write_iff_aux t hw.1 v.1
    have hn' := List.nodup_cons.1 hn
    have ih2 := writeNamed_iff_aux ts hw.2 hn'.2 (pre ++ [(n, write t v.1)])
      (by
        intro x hx
        simp only [List.map_append, List.mem_append, not_or]
        refine ⟨hp x (List.mem_cons_of_mem _ hx), ?_⟩
        simp
        rintro rfl; exact hn'.1 hx) v.2
    unfold describesNamed writeNamed KeptAll
    rw [← ih1, ← ih2, member_append pre (writeNamed ts v.2) n (write t v.1) (hp n (by simp [names]))]
    rw [List.append_assoc]
    simp
theorem writeAlts_iff_aux : (ts : Tys) → WfAll ts → (i : Nat) → ∀ v : alts ts,
    (describesAlts true ts i (writeAlts ts i v) v ↔ KeptAlt ts i v)
  | .nil, _, _, v => v.elim
  | .cons _ t ts, hw, i, .inl v => by
    simp only [describesAlts, writeAlts, KeptAlt]
    exact altDoc_write t i v (write_iff_aux t hw.1 v) (empty_kept t v)
  | .cons _ t ts, hw, i, .inr v => by
    simp only [describesAlts, writeAlts, KeptAlt]
    exact writeAlts_iff_aux ts hw.2 (i + 1) v
end

/-! ## What is written means the value -/

theorem altDoc_means (t : Ty) (i : Nat) (v : denote t) (h : t.isEmpty = false → describes false t (write t v) v) :
    altDoc false t.isEmpty i (altJson t i (write t v)) (describes false t · v) := by
  unfold altDoc altJson
  cases he : t.isEmpty with
  | true => simp
  | false => simp [h he]

mutual
theorem write_means_aux : (t : Ty) → Wf t → ∀ v : denote t, Kept t v → describes false t (write t v) v
  | .empty, _, v, _ => by simp [write, describes]
  | .uint, _, v, _ => by simp [write, describes]
  | .int, _, v, _ => by simp [write, describes]
  | .enum, _, v, _ => by simp [write, describes]
  | .str, _, v, _ => by simp [write, describes]
  | .buf, _, v, h => by
    simp only [write, describes]
    rw [encodeText_eq v h]; rfl
  | .fixed n, hn, b, _ => by
    simp only [write, describes]
    rw [encodeText_eq _ (by rw [List.length_ofFn]; exact hn)]; rfl
  | .cont t, hw, vs, h => by
    have ih := write_means_aux t hw
    simp only [write, describes]
    cases vs with
    | nil => exact absurd rfl h.1
    | cons v vs =>
      refine ⟨_, rfl, ?_⟩
      have h2 := h.2
      clear h
      generalize v :: vs = l at h2
      induction l with
      | nil => trivial
      | cons a l ih' => exact ⟨ih a (h2 a (by simp)), ih' fun x hx => h2 x (by simp [hx])⟩
  | .seq ts, hw, v, h => by
    have ih := writeMany_means_aux ts hw v h
    have hl := writeMany_length ts v
    simp only [write, describes]
    by_cases h0 : ts.count = 0
    · rw [h0] at hl ⊢
      rw [List.length_eq_zero_iff.1 hl]
      simp [pack]
    · by_cases h1 : ts.count = 1
      · rw [h1] at hl ⊢
        obtain ⟨j, hj⟩ := List.length_eq_one_iff.1 hl
        rw [hj] at ih ⊢
        exact ih
      · obtain ⟨c, hc⟩ : ∃ c, ts.count = c + 2 := ⟨ts.count - 2, by omega⟩
        rw [hc] at hl ⊢
        have hp : pack (writeMany ts v) = .arr (writeMany ts v) := by
          generalize writeMany ts v = l at hl
          match l, hl with
          | _ :: _ :: _, _ => rfl
        rw [hp]
        exact ⟨_, rfl, ih⟩
  | .record .nil, _, v, _ => by simp [describes, write]
  | .record (.cons n t ts), hw, v, h => by
    have ih1 := write_means_aux t hw.2.1 v.1 h.1
    have ih2 := writeNamed_means_aux ts hw.2.2 (List.nodup_cons.1 hw.1).2 [(n, write t v.1)]
      (by intro x hx; simp; rintro rfl; exact (List.nodup_cons.1 hw.1).1 hx) v.2 h.2
    simp only [write, describes, Bool.false_eq_true, if_false, describesNamed]
    have hm := member_append [] (writeNamed ts v.2) n (write t v.1) (by simp)
    simp only [List.nil_append] at hm
    rw [hm]
    exact ⟨⟨_, rfl⟩, ⟨_, rfl, ih1⟩, ih2⟩
  | .var t ts, hw, .inl v, h => by
    simp only [write, describes]
    exact .inl (altDoc_means t 0 v fun _ => write_means_aux t hw.1 v h)
  | .var t ts, hw, .inr v, h => by
    simp only [write, describes]
    exact writeAlts_means_aux ts hw.2 1 v h
theorem writeMany_means_aux : (ts : Tys) → WfAll ts → ∀ v : members ts, KeptAll ts v →
    describesMany false ts (writeMany ts v) v
  | .nil, _, v, _ => by simp [describesMany, writeMany]
  | .cons _ t ts, hw, v, h => by
    have ih1 := write_means_aux t hw.1 v.1 h.1
    have ih2 := writeMany_means_aux ts hw.2 v.2 h.2
    unfold describesMany writeMany
    split
    · exact ih2
    · exact ⟨_, _, rfl, ih1, ih2⟩
theorem writeNamed_means_aux : (ts : Tys) → WfAll ts → (names ts).Nodup → (pre : List (Name × Json)) →
    (∀ n ∈ names ts, n ∉ pre.map (·.1)) → ∀ v : members ts, KeptAll ts v →
    describesNamed false ts (.obj (pre ++ writeNamed ts v)) v
  | .nil, _, _, _, _, v, _ => by simp [describesNamed]
  | .cons n t ts, hw, hn, pre, hp, v, h => by
    have ih1 := write_means_aux t hw.1 v.1 h.1
    have hn' := List.nodup_cons.1 hn
    have ih2 := writeNamed_means_aux ts hw.2 hn'.2 (pre ++ [(n, write t v.1)])
      (by
        intro x hx
        simp only [List.map_append, List.mem_append, not_or]
        refine ⟨hp x (List.mem_cons_of_mem _ hx), ?_⟩
        simp
        rintro rfl; exact hn'.1 hx) v.2 h.2
    unfold describesNamed writeNamed
    rw [member_append pre (writeNamed ts v.2) n (write t v.1) (hp n (by simp [names]))]
    rw [List.append_assoc] at ih2
    exact ⟨⟨_, rfl, ih1⟩, ih2⟩
theorem writeAlts_means_aux : (ts : Tys) → WfAll ts → (i : Nat) → ∀ v : alts ts, KeptAlt ts i v →
    describesAlts false ts i (writeAlts ts i v) v
  | .nil, _, _, v, _ => v.elim
  | .cons _ t ts, hw, i, .inl v, h => by
    simp only [describesAlts, writeAlts]
    exact altDoc_means t i v fun _ => write_means_aux t hw.1 v h.2
  | .cons _ t ts, hw, i, .inr v, h => by
    simp only [describesAlts, writeAlts]
    exact writeAlts_means_aux ts hw.2 (i + 1) v h
end

/-! ## The reader understands the documents that are meant -/

theorem all2_imp {α : Type} {R S : Json → α → Prop} (P : α → Prop) : (js : List Json) → (vs : List α) →
    (∀ j v, P v → R j v → S j v) → (∀ v ∈ vs, P v) → All2 R js vs → All2 S js vs
  | [], [], _, _, _ => trivial
  | _ :: js, v :: vs, h, hp, ha => ⟨h _ _ (hp v (by simp)) ha.1,
      all2_imp P js vs h (fun x hx => hp x (by simp [hx])) ha.2⟩
  | [], _ :: _, _, _, ha => ha.elim
  | _ :: _, [], _, _, ha => ha.elim

mutual
theorem strict_lax_aux : (t : Ty) → Wf t → ∀ (j : Json) (v : denote t), Kept t v → describes false t j v →
    describes true t j v
  | .empty, _, j, v, _, _ => by simp [describes]
  | .uint, _, j, v, _, h => by simpa [describes] using h
  | .int, _, j, v, _, h => by simpa [describes] using h
  | .enum, hw, j, v, hk, h => by
    simp only [describes] at h
    rw [show j = write .enum v from h]
    exact (write_iff_aux .enum hw v).2 hk
  | .str, hw, j, v, hk, h => by
    simp only [describes] at h
    rw [show j = write .str v from h]
    exact (write_iff_aux .str hw v).2 hk
  | .buf, hw, j, v, hk, h => by
    simp only [describes] at h
    rw [show j = write .buf v by rw [h, write, encodeText_eq v hk]]
    exact (write_iff_aux .buf hw v).2 hk
  | .fixed n, hw, j, v, hk, h => by
    simp only [describes] at h
    rw [show j = write (.fixed n) v by rw [h, write, encodeText_eq _ (by rw [List.length_ofFn]; exact hw)]]
    exact (write_iff_aux (.fixed n) hw v).2 hk
  | .cont t, hw, j, vs, hk, h => by
    have ih := strict_lax_aux t hw
    simp only [describes] at h ⊢
    obtain ⟨js, h1, h2⟩ := h
    exact ⟨js, h1, all2_imp (Kept t) js vs ih hk.2 h2⟩
  | .seq ts, hw, j, v, hk, h => by
    simp only [describes] at h ⊢
    by_cases h0 : ts.count = 0
    · rw [h0]; simp
    · by_cases h1 : ts.count = 1
      · rw [h1] at h ⊢
        exact strict_lax_many_aux ts hw [j] v hk h
      · obtain ⟨c, hc⟩ : ∃ c, ts.count = c + 2 := ⟨ts.count - 2, by omega⟩
        rw [hc] at h ⊢
        obtain ⟨js, h1, h2⟩ := h
        exact ⟨js, h1, strict_lax_many_aux ts hw js v hk h2⟩
  | .record .nil, _, j, v, _, _ => by simp [describes, describesNamed]
  | .record (.cons n t ts), hw, j, v, hk, h => by
    simp only [describes, Bool.false_eq_true, if_false, if_true, describesNamed] at h ⊢
    obtain ⟨-, ⟨m, h1, h2⟩, h3⟩ := h
    exact ⟨⟨m, h1, strict_lax_aux t hw.2.1 m v.1 hk.1 h2⟩, strict_lax_named_aux ts hw.2.2 j v.2 hk.2 h3⟩
  | .var t ts, hw, j, .inl v, hk, h => by
    have ih := strict_lax_aux t hw.1
    simp only [describes, Bool.false_eq_true, false_and, or_false] at h ⊢
    obtain ⟨-, h⟩ := h
    left
    refine ⟨fun _ => by omega, ?_⟩
    split at h
    · rename_i he; rw [if_pos he]; exact h
    · rename_i he; rw [if_neg he]
      obtain ⟨x, h1, h2⟩ := h
      exact ⟨x, h1, ih x v hk h2⟩
  | .var t ts, hw, j, .inr v, hk, h => by
    simp only [describes] at h ⊢
    exact strict_lax_alts_aux ts hw.2 1 j v hk h
theorem strict_lax_many_aux : (ts : Tys) → WfAll ts → ∀ (js : List Json) (v : members ts), KeptAll ts v →
    describesMany false ts js v → describesMany true ts js v
  | .nil, _, js, v, _, h => by simpa [describesMany] using h
  | .cons _ t ts, hw, js, v, hk, h => by
    have ih := strict_lax_aux t hw.1
    have ih2 := strict_lax_many_aux ts hw.2
    unfold describesMany at h ⊢
    split at h
    · rename_i he; rw [if_pos he]; exact ih2 js v.2 hk.2 h
    · rename_i he; rw [if_neg he]
      obtain ⟨j, js', h0, h1, h2⟩ := h
      exact ⟨j, js', h0, ih j v.1 hk.1 h1, ih2 js' v.2 hk.2 h2⟩
theorem strict_lax_named_aux : (ts : Tys) → WfAll ts → ∀ (j : Json) (v : members ts), KeptAll ts v →
    describesNamed false ts j v → describesNamed true ts j v
  | .nil, _, j, v, _, h => by simp [describesNamed]
  | .cons _ t ts, hw, j, v, hk, h => by
    unfold describesNamed at h ⊢
    obtain ⟨⟨m, h1, h2⟩, h3⟩ := h
    exact ⟨⟨m, h1, strict_lax_aux t hw.1 m v.1 hk.1 h2⟩, strict_lax_named_aux ts hw.2 j v.2 hk.2 h3⟩
theorem strict_lax_alts_aux : (ts : Tys) → WfAll ts → ∀ (i : Nat) (j : Json) (v : alts ts), KeptAlt ts i v →
    describesAlts false ts i j v → describesAlts true ts i j v
  | .nil, _, _, _, v, _, _ => v.elim
  | .cons _ t ts, hw, i, j, .inl v, hk, h => by
    have ih := strict_lax_aux t hw.1
    simp only [describesAlts] at h ⊢
    obtain ⟨-, h⟩ := h
    refine ⟨fun _ => hk.1, ?_⟩
    split at h
    · rename_i he; rw [if_pos he]; exact h
    · rename_i he; rw [if_neg he]
      obtain ⟨x, h1, h2⟩ := h
      exact ⟨x, h1, ih x v hk.2 h2⟩
  | .cons _ t ts, hw, i, j, .inr v, hk, h => by
    simp only [describesAlts] at h ⊢
    exact strict_lax_alts_aux ts hw.2 (i + 1) j v hk h
end

/-! ## What the reader accepts into strict types -/

theorem nulFree_mem {js : List Json} (h : NulFreeAll js) : ∀ j ∈ js, NulFree j := by
  induction js with
  | nil => simp
  | cons a js ih =>
    intro j hj
    rcases List.mem_cons.1 hj with rfl | hj
    · exact h.1
    · exact ih h.2 j hj

theorem nulFree_member {j m : Json} {n : Name} (h : NulFree j) (hm : member j n = some m) : NulFree m := by
  cases j <;> simp only [member, Option.some.injEq, reduceCtorEq] at hm
  · subst hm; trivial
  · rename_i ms
    subst hm
    have : ∀ ms : List (Name × Json), NulFreeMembers ms →
        NulFree (((ms.find? fun m => m.1 = n).map (·.2)).getD .null) := by
      intro ms
      induction ms with
      | nil => intro _; trivial
      | cons m ms ih =>
        intro h
        rw [List.find?_cons]
        by_cases he : m.1 = n
        · simp only [he, decide_true, Option.map_some, Option.getD_some]
          have := h.1
          obtain ⟨n', j'⟩ := m
          exact this
        · simp only [he, decide_false]
          exact ih h.2
    exact this ms h

mutual
theorem strict_null : (t : Ty) → Strict t → ∀ v, ¬ describes true t .null v
  | .empty, h, _ => h.elim
  | .uint, _, v => by simp [describes]
  | .int, _, v => by simp [describes]
  | .enum, h, _ => h.elim
  | .str, _, v => by simp [describes]
  | .buf, h, _ => h.elim
  | .fixed _, h, _ => h.elim
  | .cont t, _, v => by simp [describes]
  | .seq .nil, h, _ => absurd rfl h.1
  | .seq (.cons n t ts), h, v => by
    have ih := strict_null t h.2.1 v.1
    have hne : t.isEmpty = false := by
      cases t <;> simp only [Ty.isEmpty]
      exact h.2.1.elim
    simp only [describes, Tys.count, hne, Bool.false_eq_true, if_false]
    cases hc : ts.count with
    | zero =>
      simp only [describesMany, hne, Bool.false_eq_true, if_false]
      rintro ⟨j, js, h0, h1, -⟩
      injection h0 with h0 _
      exact ih (h0 ▸ h1)
    | succ c => simp
  | .record .nil, h, _ => absurd rfl h.1
  | .record (.cons n t ts), h, v => by
    have ih := strict_null t h.2.1 v.1
    simp only [describes, if_true, describesNamed, member]
    rintro ⟨⟨m, h0, h1⟩, -⟩
    injection h0 with h0
    exact ih (h0 ▸ h1)
  | .var _ _, h, _ => h.elim
end

theorem strict_not_empty (t : Ty) (h : Strict t) : t.isEmpty = false := by
  cases t <;> simp only [Ty.isEmpty]
  exact h.elim

mutual
theorem lax_strict_aux : (t : Ty) → Strict t → ∀ (j : Json) (v : denote t), NulFree j → describes true t j v →
    describes false t j v
  | .empty, h, _, _, _, _ => h.elim
  | .uint, _, j, v, _, h => by simpa [describes] using h
  | .int, _, j, v, _, h => by simpa [describes] using h
  | .enum, h, _, _, _, _ => h.elim
  | .str, _, j, v, hn, h => by
    simp only [describes, if_true] at h
    obtain ⟨s, rfl, h⟩ := h
    rw [takeWhile_nul hn] at h
    subst h
    simp [describes]
  | .buf, h, _, _, _, _ => h.elim
  | .fixed _, h, _, _, _, _ => h.elim
  | .cont t, hs, j, vs, hn, h => by
    have ih := lax_strict_aux t hs
    simp only [describes] at h ⊢
    obtain ⟨js, rfl, h⟩ := h
    refine ⟨js, rfl, ?_⟩
    replace hn : NulFreeAll js := hn
    clear hs
    induction js generalizing vs with
    | nil => cases vs with
      | nil => trivial
      | cons => exact h.elim
    | cons j js ih' => cases vs with
      | nil => exact h.elim
      | cons v vs => exact ⟨ih j v hn.1 h.1, ih' vs h.2 hn.2⟩
  | .seq ts, hs, j, v, hn, h => by
    simp only [describes] at h ⊢
    by_cases h0 : ts.count = 0
    · cases ts with
      | nil => exact absurd rfl hs.1
      | cons n t ts =>
        unfold Tys.count at h0
        rw [strict_not_empty t hs.2.1] at h0
        simp at h0
    · by_cases h1 : ts.count = 1
      · rw [h1] at h ⊢
        exact lax_strict_many_aux ts hs.2 [j] v ⟨hn, trivial⟩ h
      · obtain ⟨c, hc⟩ : ∃ c, ts.count = c + 2 := ⟨ts.count - 2, by omega⟩
        rw [hc] at h ⊢
        obtain ⟨js, rfl, h2⟩ := h
        exact ⟨js, rfl, lax_strict_many_aux ts hs.2 js v hn h2⟩
  | .record .nil, hs, _, _, _, _ => absurd rfl hs.1
  | .record (.cons n t ts), hs, j, v, hn, h => by
    simp only [describes, Bool.false_eq_true, if_false, if_true, describesNamed] at h ⊢
    obtain ⟨⟨m, h1, h2⟩, h3⟩ := h
    refine ⟨?_, ⟨m, h1, lax_strict_aux t hs.2.1 m v.1 (nulFree_member hn h1) h2⟩,
      lax_strict_named_aux ts hs.2.2 j v.2 hn h3⟩
    cases j <;> simp only [member, Option.some.injEq, reduceCtorEq] at h1
    · subst h1; exact absurd h2 (strict_null t hs.2.1 v.1)
    · exact ⟨_, rfl⟩
  | .var _ _, h, _, _, _, _ => h.elim
theorem lax_strict_many_aux : (ts : Tys) → StrictAll ts → ∀ (js : List Json) (v : members ts), NulFreeAll js →
    describesMany true ts js v → describesMany false ts js v
  | .nil, _, js, v, _, h => by simpa [describesMany] using h
  | .cons _ t ts, hs, js, v, hn, h => by
    have ih := lax_strict_aux t hs.1
    have ih2 := lax_strict_many_aux ts hs.2
    unfold describesMany at h ⊢
    split at h
    · rename_i he; rw [if_pos he]; exact ih2 js v.2 hn h
    · rename_i he; rw [if_neg he]
      obtain ⟨j, js', rfl, h1, h2⟩ := h
      exact ⟨j, js', rfl, ih j v.1 hn.1 h1, ih2 js' v.2 hn.2 h2⟩
theorem lax_strict_named_aux : (ts : Tys) → StrictAll ts → ∀ (j : Json) (v : members ts), NulFree j →
    describesNamed true ts j v → describesNamed false ts j v
  | .nil, _, j, v, _, h => by simp [describesNamed]
  | .cons _ t ts, hs, j, v, hn, h => by
    unfold describesNamed at h ⊢
    obtain ⟨⟨m, h1, h2⟩, h3⟩ := h
    exact ⟨⟨m, h1, lax_strict_aux t hs.1 m v.1 (nulFree_member hn h1) h2⟩,
      lax_strict_named_aux ts hs.2 j v.2 hn h3⟩
end

end Nbdl.Bind
