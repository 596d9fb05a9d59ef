import Verif.JsBind.Lemmas
namespace Nbdl.JsBind
open Nbdl.Bind (Ty Tys denote members alts init initAll Json Name encodeText)
open Spec

/-! ### The binder in the browser -/

/-- How the binder in the browser writes. -/
def home (e : Engine) : Codec :=
  { none := .arr [], uint := fun n => .num n.toInt, str := writeText e, cont := .arr, obj := .obj, key := utf8ToString e }

theorem pack_home (e : Engine) (js : List Js) : (home e).pack js = pack js := by
  match js with
  | [] => rfl
  | [_] => rfl
  | _ :: _ :: _ => rfl

mutual
theorem write_enc (e : Engine) : (t : Ty) → (v : denote t) → write e t v = enc (home e) t v
  | .empty, _ => rfl
  | .uint, _ => rfl
  | .int, _ => rfl
  | .enum, _ => rfl
  | .str, _ => rfl
  | .buf, _ => rfl
  | .fixed _, _ => rfl
  | .cont t, vs => by
    simp only [write, enc, home]
    congr 1
    exact List.map_congr_left fun v _ => write_enc e t v
  | .seq ts, v => by simp only [write, enc, pack_home, writeMany_enc e ts v]
  | .record ts, v => by
    simp only [write, enc, writeNamed_enc e ts v]
    rfl
  | .var t _, .inl v => by simp only [write, enc, write_enc e t v]
  | .var _ ts, .inr v => by simp only [write, enc, writeAlts_enc e ts 1 v]
theorem writeMany_enc (e : Engine) : (ts : Tys) → (v : members ts) → writeMany e ts v = encMany (home e) ts v
  | .nil, _ => rfl
  | .cons _ t ts, v => by simp only [writeMany, encMany, write_enc e t v.1, writeMany_enc e ts v.2]
theorem writeNamed_enc (e : Engine) : (ts : Tys) → (v : members ts) → writeNamed e ts v = encNamed (home e) ts v
  | .nil, _ => rfl
  | .cons _ t ts, v => by
    simp only [writeNamed, encNamed, write_enc e t v.1, writeNamed_enc e ts v.2]
    rfl
theorem writeAlts_enc (e : Engine) : (ts : Tys) → (i : Nat) → (v : alts ts) →
    writeAlts e ts i v = encAlts (home e) ts i v
  | .cons _ t _, i, .inl v => by simp only [writeAlts, encAlts, write_enc e t v]
  | .cons _ _ ts, i, .inr v => by simp only [writeAlts, encAlts, writeAlts_enc e ts (i + 1) v]
end

theorem home_good {e : Engine} (he : Sane e) : (home e).Good e atHome where
  uint n := by simp [home, toInt32, atHome]
  enum n := by simp [atHome]
  str s h := by
    simp only [home, writeText, readText, Option.some.injEq]
    exact text_home he s h
  base64 b := by
    simp only [home, writeText, readText, Option.some.injEq]
    exact (text_home he _ (isText_of_ascii (encodeText_ascii b))).2 ⟨encodeText_ascii b, Bind.encodeText_nul b⟩
  contNil := .inl ⟨rfl, trivial⟩
  cont js _ := ⟨rfl, trivial⟩
  obj ms _ := rfl
  key n _ := rfl

/-! ### From the server -/

/-- How values from the server look in the browser. -/
def fromServer (e : Engine) : Codec :=
  { none := .null, uint := fun n => .num n.toNat, str := fun s => .str (e.decode s),
    cont := fun js => if js.isEmpty then .null else .arr js,
    obj := fun ms => if ms.isEmpty then .null else .obj ms, key := e.decode }

theorem toClientAll_map (e : Engine) (js : List Json) : toClientAll e js = js.map (toClient e) := by
  induction js with
  | nil => rfl
  | cons j js ih => simp [toClientAll, ih]

theorem pack_fromServer (e : Engine) (js : List Json) :
    toClient e (Bind.pack js) = (fromServer e).pack (js.map (toClient e)) := by
  match js with
  | [] => rfl
  | [_] => rfl
  | _ :: _ :: _ => simp [Bind.pack, toClient, toClientAll_map, Codec.pack]

theorem alt_fromServer (e : Engine) (t : Ty) (i : Nat) (j : Json) :
    toClient e (Bind.altJson t i j) = altJs t i (toClient e j) := by
  unfold Bind.altJson altJs
  split <;> simp [toClient, toClientAll]

mutual
theorem down_enc (e : Engine) : (t : Ty) → (v : denote t) → toClient e (Bind.write t v) = enc (fromServer e) t v
  | .empty, _ => rfl
  | .uint, _ => rfl
  | .int, _ => rfl
  | .enum, _ => rfl
  | .str, _ => rfl
  | .buf, _ => rfl
  | .fixed _, _ => rfl
  | .cont t, vs => by
    cases vs with
    | nil => rfl
    | cons v vs =>
      have ih : ∀ v, (toClient e ∘ Bind.write t) v = enc (fromServer e) t v := down_enc e t
      simp only [Bind.write, List.isEmpty_cons, Bool.false_eq_true, if_false, toClient, toClientAll_map, enc,
        List.map_map, fromServer, List.map_cons]
      congr 1
      refine congr (congrArg _ (ih v)) (List.map_congr_left fun v _ => ih v)
  | .seq ts, v => by simp only [Bind.write, enc, pack_fromServer, downMany_enc e ts v]
  | .record .nil, v => rfl
  | .record (.cons n t ts), v => by
    simp only [Bind.write, enc, toClient, toClientMembers, encNamed, down_enc e t v.1, downNamed_enc e ts v.2]
    rfl
  | .var t _, .inl v => by simp only [Bind.write, enc, alt_fromServer, down_enc e t v]
  | .var _ ts, .inr v => by simp only [Bind.write, enc, downAlts_enc e ts 1 v]
theorem downMany_enc (e : Engine) : (ts : Tys) → (v : members ts) →
    (Bind.writeMany ts v).map (toClient e) = encMany (fromServer e) ts v
  | .nil, _ => rfl
  | .cons _ t ts, v => by
    simp only [Bind.writeMany, encMany]
    split
    · exact downMany_enc e ts v.2
    · simp only [List.map_cons, down_enc e t v.1, downMany_enc e ts v.2]
theorem downNamed_enc (e : Engine) : (ts : Tys) → (v : members ts) →
    toClientMembers e (Bind.writeNamed ts v) = encNamed (fromServer e) ts v
  | .nil, _ => rfl
  | .cons _ t ts, v => by
    simp only [Bind.writeNamed, encNamed, toClientMembers, down_enc e t v.1, downNamed_enc e ts v.2]
    rfl
theorem downAlts_enc (e : Engine) : (ts : Tys) → (i : Nat) → (v : alts ts) →
    toClient e (Bind.writeAlts ts i v) = encAlts (fromServer e) ts i v
  | .cons _ t _, i, .inl v => by simp only [Bind.writeAlts, encAlts, alt_fromServer, down_enc e t v]
  | .cons _ _ ts, i, .inr v => by simp only [Bind.writeAlts, encAlts, downAlts_enc e ts (i + 1) v]
end

theorem fromServer_good {e : Engine} (he : Sane e) : (fromServer e).Good e down where
  uint n := by simp [fromServer, toInt32, down]
  enum n := by simp [down]
  str s h := by
    simp only [fromServer, readText, Option.some.injEq]
    exact text_down he s h
  base64 b := by
    simp only [fromServer, readText, Option.some.injEq]
    exact (text_down he _ (isText_of_ascii (encodeText_ascii b))).2 (encodeText_ascii b)
  contNil := .inr ⟨rfl, by simp [down]⟩
  cont js h := by
    cases js with
    | nil => exact absurd rfl h
    | cons j js => exact ⟨rfl, by simp [down]⟩
  obj ms h := by
    cases ms with
    | nil => exact absurd rfl h
    | cons m ms => rfl
  key n hn := (key_decode hn.2).symm

/-! ### To the server -/

theorem toServerAll_map (e : Engine) (js : List Js) : toServerAll e js = js.map (toServer e) := by
  induction js with
  | nil => rfl
  | cons j js ih => simp [toServerAll, ih]

theorem alt_toServer (e : Engine) (t : Ty) (i : Nat) (j : Js) :
    toServer e (altJs t i j) = Bind.altJson t i (toServer e j) := by
  unfold Bind.altJson altJs
  split <;> simp [toServer, toServerAll]

theorem key_up {e : Engine} (he : Sane e) {n : Name} (hn : Ascii n ∧ 0#8 ∉ n) : e.encode (utf8ToString e n) = n := by
  rw [text_up he n (isText_of_ascii hn.1), Bind.takeWhile_nul hn.2]

theorem base64_up {e : Engine} (he : Sane e) (b : List Byte) :
    e.encode (utf8ToString e (encodeText b)) = encodeText b :=
  key_up he ⟨encodeText_ascii b, Bind.encodeText_nul b⟩

theorem writeMany_length (e : Engine) (ts : Tys) (v : members ts) : (writeMany e ts v).length = ts.count := by
  rw [writeMany_enc, encMany_length]

theorem all2_map {α : Type} (R : Json → α → Prop) (P : α → Prop) (f : α → Json) (vs : List α)
    (h : ∀ v ∈ vs, (R (f v) v ↔ P v)) : Bind.Spec.All2 R (vs.map f) vs ↔ ∀ v ∈ vs, P v := by
  induction vs with
  | nil => simp [Bind.Spec.All2]
  | cons v vs ih =>
    have := ih fun v hv => h v (by simp [hv])
    simp [Bind.Spec.All2, h v (by simp), this]

section
variable {e : Engine}
open Bind.Spec (describes describesMany describesNamed describesAlts altDoc names)

theorem altDoc_up (t : Ty) (i : Nat) (j : Json) (v : denote t) (hi : i < 2 ^ 31)
    (ih : describes true t j v ↔ Holds up t v) :
    altDoc true t.isEmpty i (Bind.altJson t i j) (describes true t · v) ↔ Holds up t v := by
  unfold altDoc Bind.altJson
  cases h : t.isEmpty with
  | true => simp [hi, empty_holds up t h v]
  | false => simp [hi, ih]

mutual
theorem up_aux (he : Sane e) : (t : Ty) → Wf t → (v : denote t) → Holds texts t v →
    (describes true t (toServer e (write e t v)) v ↔ Holds up t v)
  | .empty, _, v, _ => by simp [describes, Holds]
  | .uint, _, v, _ => by
    simp only [write, toServer, describes, Holds, up, Json.num.injEq]
    rw [BitVec.toInt_eq_toNat_cond]
    split
    · omega
    · have := v.isLt; omega
  | .int, _, v, _ => by simp [write, toServer, describes, Holds]
  | .enum, _, v, _ => by
    simp only [write, toServer, describes, Holds, up, if_true, Json.num.injEq]
    rw [BitVec.toInt_eq_toNat_cond]
    split
    · omega
    · have := v.isLt; omega
  | .str, _, v, hv => by
    simp only [write, writeText, toServer, describes, Holds, up, if_true, text_up he v hv, Json.str.injEq]
    rw [← Bind.takeWhile_nul_iff]
    have htw : (v.takeWhile (· ≠ 0#8)).takeWhile (· ≠ 0#8) = v.takeWhile (· ≠ 0#8) := by
      refine Bind.takeWhile_nul fun hm => ?_
      have := List.all_eq_true.1 (List.all_takeWhile (l := v) (p := fun x => decide (x ≠ 0#8))) _ hm
      simp at this
    constructor
    · rintro ⟨s, rfl, h2⟩
      rw [htw] at h2
      exact h2
    · exact fun h => ⟨_, rfl, by rw [htw]; exact h⟩
  | .buf, _, v, hv => by
    simp only [Holds] at hv
    simp only [write, writeText, toServer, describes, Holds, if_true, base64_up he, hv, iff_true]
    exact ⟨_, true, rfl, by rw [Bind.takeWhile_nul (Bind.encodeText_nul v)]; exact Bind.decode_encodeText v [] hv⟩
  | .fixed n, hn, b, _ => by
    have hl : (List.ofFn b).length = n := by simp
    simp only [write, writeText, toServer, describes, Holds, if_true, base64_up he, iff_true]
    refine ⟨_, true, List.ofFn b, rfl, ?_, (Bind.getD_ofFn b).symm⟩
    rw [Bind.takeWhile_nul (Bind.encodeText_nul _)]
    exact Bind.decode_encodeText_fixed _ _ (by rw [hl]; exact hn) (by simp)
  | .cont t, hw, vs, hv => by
    simp only [Holds] at hv
    have ih : ∀ v ∈ vs, (describes true t ((toServer e ∘ write e t) v) v ↔ Holds up t v) :=
      fun v hm => up_aux he t hw v (hv.2 v hm)
    have hall := all2_map (describes true t) (Holds up t) (toServer e ∘ write e t) vs ih
    simp only [write, toServer, describes, Holds, toServerAll_map, List.map_map, up, true_and]
    rw [show (∀ v ∈ vs, Holds ⟨fun n => n.toNat < 2 ^ 31, fun n => 0 ≤ n.toInt, fun s => 0#8 ∉ s, fun _ => True⟩ t v)
      ↔ ∀ v ∈ vs, Holds up t v from Iff.rfl, ← hall]
    constructor
    · rintro ⟨js, h, h'⟩
      injection h with h
      rw [h]; exact h'
    · exact fun h => ⟨_, rfl, h⟩
  | .seq ts, hw, v, hv => by
    have ih := upMany_aux he ts hw v hv
    have hl := writeMany_length e ts v
    simp only [write, describes, Holds]
    by_cases h0 : ts.count = 0
    · rw [h0]
      simp [holds_count up ts h0 v]
    · by_cases h1 : ts.count = 1
      · rw [h1] at hl ⊢
        obtain ⟨j, hj⟩ := List.length_eq_one_iff.1 hl
        rw [hj] at ih ⊢
        exact ih
      · obtain ⟨c, hc⟩ : ∃ c, ts.count = c + 2 := ⟨ts.count - 2, by omega⟩
        rw [hc] at hl ⊢
        have hp : pack (writeMany e ts v) = .arr (writeMany e ts v) := by
          generalize writeMany e ts v = l at hl
          match l, hl with
          | _ :: _ :: _, _ => rfl
        rw [hp, ← ih]
        simp only [toServer, toServerAll_map]
        constructor
        · rintro ⟨js, h, h'⟩
          injection h with h
          rw [h]; exact h'
        · exact fun h => ⟨_, rfl, h⟩
  | .record ts, hw, v, hv => by
    have := upNamed_aux he ts hw.2 hw.1 [] (by simp) v hv
    simpa only [write, describes, Holds, if_true, toServer, List.nil_append] using this
  | .var t ts, hw, .inl v, hv => by
    simp only [write, describes, Holds, alt_toServer]
    rw [altDoc_up t 0 _ v (by omega) (up_aux he t hw.2.1 v hv)]
    constructor
    · rintro (h | ⟨-, -, id, h, h'⟩)
      · exact h
      · have := Bind.typeId_alt t 0 _ id h
        omega
    · exact fun h => .inl h
  | .var t ts, hw, .inr v, hv => by
    simp only [write, describes, Holds]
    exact upAlts_aux he ts hw.2.2 1 (by have := hw.1; rw [Bind.names_length] at this; omega) v hv
theorem upMany_aux (he : Sane e) : (ts : Tys) → WfAll ts → (v : members ts) → HoldsAll texts ts v →
    (describesMany true ts ((writeMany e ts v).map (toServer e)) v ↔ HoldsAll up ts v)
  | .nil, _, v, _ => by simp [describesMany, writeMany, HoldsAll]
  | .cons _ t ts, hw, v, hv => by
    have ih1 := up_aux he t hw.1 v.1 hv.1
    have ih2 := upMany_aux he ts hw.2 v.2 hv.2
    unfold describesMany writeMany HoldsAll
    split
    · rename_i he
      rw [ih2]
      exact ⟨fun h => ⟨empty_holds up t he v.1, h⟩, fun h => h.2⟩
    · rw [← ih1, ← ih2]
      constructor
      · rintro ⟨j, js, h, h1, h2⟩
        injection h with h h'
        subst h; subst h'
        exact ⟨h1, h2⟩
      · exact fun h => ⟨_, _, rfl, h.1, h.2⟩
theorem upNamed_aux (he : Sane e) : (ts : Tys) → WfAll ts → NamesOk (names ts) → (pre : List (Name × Json)) →
    (∀ n ∈ names ts, n ∉ pre.map (·.1)) → (v : members ts) → HoldsAll texts ts v →
    (describesNamed true ts (.obj (pre ++ toServerMembers e (writeNamed e ts v))) v ↔ HoldsAll up ts v)
  | .nil, _, _, _, _, v, _ => by simp [describesNamed, HoldsAll]
  | .cons n t ts, hw, hn, pre, hp, v, hv => by
    have ih1 := up_aux he t hw.1 v.1 hv.1
    have hn' := List.nodup_cons.1 hn.1
    have ih2 := upNamed_aux he ts hw.2 ⟨hn'.2, fun m hm => hn.2 m (List.mem_cons_of_mem _ hm)⟩
      (pre ++ [(n, toServer e (write e t v.1))])
      (by
        intro x hx
        simp only [List.map_append, List.mem_append, not_or]
        refine ⟨hp x (List.mem_cons_of_mem _ hx), ?_⟩
        simp
        rintro rfl; exact hn'.1 hx) v.2 hv.2
    unfold describesNamed writeNamed HoldsAll
    rw [← ih1, ← ih2, toServerMembers, key_up he (hn.2 n (by simp [names])),
      Bind.member_append pre _ n _ (hp n (by simp [names]))]
    rw [List.append_assoc]
    simp
theorem upAlts_aux (he : Sane e) : (ts : Tys) → WfAll ts → (i : Nat) → i + ts.length < 2 ^ 31 → (v : alts ts) →
    HoldsAlt texts ts v → (describesAlts true ts i (toServer e (writeAlts e ts i v)) v ↔ HoldsAlt up ts v)
  | .nil, _, _, _, v, _ => v.elim
  | .cons _ t ts, hw, i, hi, .inl v, hv => by
    simp only [describesAlts, writeAlts, HoldsAlt, alt_toServer]
    exact altDoc_up t i _ v (by omega) (up_aux he t hw.1 v hv)
  | .cons _ t ts, hw, i, hi, .inr v, hv => by
    simp only [describesAlts, writeAlts, HoldsAlt]
    exact upAlts_aux he ts hw.2 (i + 1) (by simp [Tys.length] at hi; omega) v hv
end
end

end Nbdl.JsBind
