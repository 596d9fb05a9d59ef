import Verif.ApiSig.Props
import Verif.Bind.Lemmas2
/-!
# Which types with one signature have one format on the wire (C102)
-/
namespace Nbdl.ApiSig
open Nbdl.Bind Spec

/-- The size of a buffer of fixed size can be seen from its text. -/
theorem encode_length {a b : List Byte} (ha : 4 * a.length < 2 ^ 31) (hb : 4 * b.length < 2 ^ 31)
    (h : encodeText a = encodeText b) : a.length = b.length := by
  have h1 := decode_encodeText a [] ha
  have h2 := decode_encodeText b [] hb
  rw [h, h2] at h1
  simp only [Cpp.ok.injEq, Prod.mk.injEq, true_and] at h1
  rw [h1]

/-- The tags of empty types. -/
def Tag.isEmpty : Tag → Bool
  | .cls _ => true
  | .type _ => true
  | .const _ => true
  | .ctstr _ => true
  | .sequence .nil => true
  | _ => false

theorem empty_fixed (g : Tag) (h : g.isEmpty = true) : g.fixed = 0 := by
  cases g with
  | sequence gs => cases gs <;> simp_all [Tag.isEmpty, Tag.fixed, Tags.fixed]
  | _ => simp_all [Tag.isEmpty, Tag.fixed]

theorem bind_empty (g : Tag) (ns : List Nat) (b : Ty) (h : g.bind ns = some b) : b.isEmpty = g.isEmpty := by
  cases g with
  | fund f => cases f <;> simp only [Tag.bind] at h <;> cases h <;> rfl
  | cls n => simp only [Tag.bind] at h; cases h; rfl
  | type n => simp only [Tag.bind] at h; cases h; rfl
  | const n => simp only [Tag.bind] at h; cases h; rfl
  | ctstr n => simp only [Tag.bind] at h; cases h; rfl
  | string => simp only [Tag.bind] at h; cases h; rfl
  | buffer => simp only [Tag.bind] at h; cases h; rfl
  | dynamicBuffer => simp only [Tag.bind] at h; cases h; rfl
  | container g =>
    simp only [Tag.bind] at h
    obtain ⟨x, -, rfl⟩ := Option.map_eq_some_iff.mp h; rfl
  | sequence gs =>
    cases gs with
    | nil => simp only [Tag.bind] at h; cases h; rfl
    | cons n g gs =>
      simp only [Tag.bind] at h
      obtain ⟨x, -, rfl⟩ := Option.map_eq_some_iff.mp h; rfl
  | map gs =>
    simp only [Tag.bind] at h
    obtain ⟨x, -, rfl⟩ := Option.map_eq_some_iff.mp h; rfl
  | variant gs =>
    cases gs with
    | nil => simp only [Tag.bind] at h; cases h
    | cons n g gs =>
      simp only [Tag.bind] at h
      split at h <;> cases h; rfl

theorem bindTags_cons {n : List Byte} {g : Tag} {gs : Tags} {ns : List Nat} {bs : Tys}
    (h : (Tags.cons n g gs).bind ns = some bs) :
    ∃ b bs', bs = .cons n b bs' ∧ g.bind (ns.take g.fixed) = some b ∧ gs.bind (ns.drop g.fixed) = some bs' := by
  simp only [Tags.bind] at h
  split at h
  · rename_i b bs' h1 h2
    cases h
    exact ⟨b, bs', rfl, h1, h2⟩
  · cases h

theorem count_tags : ∀ (gs : Tags) (ns ns' : List Nat) (bs bs' : Tys), gs.bind ns = some bs →
    gs.bind ns' = some bs' → bs.count = bs'.count
  | .nil, ns, ns', bs, bs', h, h' => by
    simp only [Tags.bind, Option.some.injEq] at h h'; subst h; subst h'; rfl
  | .cons n g gs, ns, ns', bs, bs', h, h' => by
    obtain ⟨b, cs, rfl, h1, h2⟩ := bindTags_cons h
    obtain ⟨b', cs', rfl, h1', h2'⟩ := bindTags_cons h'
    simp only [Tys.count, bind_empty g _ b h1, bind_empty g _ b' h1', count_tags gs _ _ cs cs' h2 h2']

theorem pack_inj : ∀ (js js' : List Json), js.length = js'.length → pack js = pack js' → js = js'
  | [], [], _, _ => rfl
  | [_], [_], _, h => by simp only [pack] at h; rw [h]
  | _ :: _ :: _, _ :: _ :: _, _, h => by simpa [pack] using h
  | [], _ :: _, h, _ => by simp at h
  | _ :: _, [], h, _ => by simp at h
  | [_], _ :: _ :: _, h, _ => by simp at h
  | _ :: _ :: _, [_], h, _ => by simp at h

/-- The index which is written for an alternative. -/
theorem alt_index (t t' : Ty) (i i' : Nat) (j j' : Json) (h : altJson t i j = altJson t' i' j') : i = i' := by
  unfold altJson at h
  split at h <;> split at h <;> simp at h <;> omega

theorem alts_index : ∀ (ts : Tys) (i : Nat) (v : alts ts), ∃ t k j, i ≤ k ∧ writeAlts ts i v = altJson t k j
  | .cons _ t _, i, .inl v => ⟨t, i, write t v, Nat.le_refl i, by rw [writeAlts]⟩
  | .cons _ _ ts, i, .inr v => by
    obtain ⟨t, k, j, h1, h2⟩ := alts_index ts (i + 1) v
    exact ⟨t, k, j, by omega, by rw [writeAlts, h2]⟩

theorem alt_value {t t' : Ty} {i : Nat} {j j' : Json} (he : t.isEmpty = t'.isEmpty) (hn : t.isEmpty = false)
    (h : altJson t i j = altJson t' i j') : j = j' := by
  unfold altJson at h
  rw [← he, hn] at h
  simpa using h

private theorem parts {ns ns' : List Nat} {k l : Nat} (hl : ns.length = k + l) (hl' : ns'.length = k + l)
    (h1 : ns.take k = ns'.take k) (h2 : ns.drop k = ns'.drop k) : ns = ns' := by
  rw [← List.take_append_drop k ns, h1, h2, List.take_append_drop]

private theorem small_take {ns : List Nat} {P : Nat → Prop} (k : Nat) (h : ∀ n ∈ ns, P n) :
    (∀ n ∈ ns.take k, P n) ∧ ∀ n ∈ ns.drop k, P n :=
  ⟨fun n hn => h n (List.mem_of_mem_take hn), fun n hn => h n (List.mem_of_mem_drop hn)⟩

private theorem no_sizes {g : Tag} {ns ns' : List Nat} (h0 : g.fixed = 0) (hl : ns.length = g.fixed)
    (hl' : ns'.length = g.fixed) : ns = ns' := by
  rw [h0] at hl hl'
  rw [List.length_eq_zero_iff.mp hl, List.length_eq_zero_iff.mp hl']

mutual
/-- If what is written for the values of the one type is written for values of the other, then the sizes
of the buffers are the same. -/
theorem tag_sizes : ∀ (g : Tag) (ns ns' : List Nat) (b b' : Ty), ns.length = g.fixed → ns'.length = g.fixed →
    (∀ n ∈ ns, 4 * n < 2 ^ 31) → (∀ n ∈ ns', 4 * n < 2 ^ 31) → g.bind ns = some b → g.bind ns' = some b' →
    (∀ v : denote b, ∃ v' : denote b', write b' v' = write b v) → ns = ns'
  | .fund f, ns, ns', b, b', hl, hl', _, _, _, _, _ => no_sizes (by rfl) hl hl'
  | .cls f, ns, ns', b, b', hl, hl', _, _, _, _, _ => no_sizes (by rfl) hl hl'
  | .type f, ns, ns', b, b', hl, hl', _, _, _, _, _ => no_sizes (by rfl) hl hl'
  | .const f, ns, ns', b, b', hl, hl', _, _, _, _, _ => no_sizes (by rfl) hl hl'
  | .ctstr f, ns, ns', b, b', hl, hl', _, _, _, _, _ => no_sizes (by rfl) hl hl'
  | .string, ns, ns', b, b', hl, hl', _, _, _, _, _ => no_sizes (by rfl) hl hl'
  | .dynamicBuffer, ns, ns', b, b', hl, hl', _, _, _, _, _ => no_sizes (by rfl) hl hl'
  | .buffer, ns, ns', b, b', hl, hl', hs, hs', h, h', hw => by
    simp only [Tag.fixed] at hl hl'
    obtain ⟨n, rfl⟩ := List.length_eq_one_iff.mp hl
    obtain ⟨m, rfl⟩ := List.length_eq_one_iff.mp hl'
    simp only [Tag.bind, List.headD_cons, Option.some.injEq] at h h'
    subst h; subst h'
    obtain ⟨v', hv⟩ := hw (fun _ => 0#8)
    simp only [write, Json.str.injEq] at hv
    have := encode_length (by simpa using hs' m (by simp)) (by simpa using hs n (by simp)) hv
    simp only [List.length_ofFn] at this
    rw [this]
  | .container g, ns, ns', b, b', hl, hl', hs, hs', h, h', hw => by
    simp only [Tag.bind] at h h'
    obtain ⟨c, hc, rfl⟩ := Option.map_eq_some_iff.mp h
    obtain ⟨c', hc', rfl⟩ := Option.map_eq_some_iff.mp h'
    refine tag_sizes g ns ns' c c' hl hl' hs hs' hc hc' fun v => ?_
    obtain ⟨vs, hv⟩ := hw [v]
    simp only [write, List.isEmpty_cons, Bool.false_eq_true, if_false, List.map_cons, List.map_nil] at hv
    match vs, hv with
    | [], hv => simp at hv
    | [x], hv => exact ⟨x, by simpa using hv⟩
    | _ :: _ :: _, hv => simp at hv
  | .sequence .nil, ns, ns', b, b', hl, hl', _, _, _, _, _ => no_sizes (by rfl) hl hl'
  | .sequence (.cons n g gs), ns, ns', b, b', hl, hl', hs, hs', h, h', hw => by
    simp only [Tag.bind] at h h'
    obtain ⟨c, hc, rfl⟩ := Option.map_eq_some_iff.mp h
    obtain ⟨c', hc', rfl⟩ := Option.map_eq_some_iff.mp h'
    refine many_sizes (.cons n g gs) ns ns' c c' hl hl' hs hs' hc hc' fun v => ?_
    obtain ⟨vs, hv⟩ := hw v
    simp only [write] at hv
    exact ⟨vs, pack_inj _ _ (by rw [writeMany_length, writeMany_length, count_tags _ _ _ _ _ hc hc']) hv⟩
  | .map .nil, ns, ns', b, b', hl, hl', _, _, _, _, _ => no_sizes (by rfl) hl hl'
  | .map (.cons n g gs), ns, ns', b, b', hl, hl', hs, hs', h, h', hw => by
    simp only [Tag.bind] at h h'
    obtain ⟨c, hc, rfl⟩ := Option.map_eq_some_iff.mp h
    obtain ⟨c', hc', rfl⟩ := Option.map_eq_some_iff.mp h'
    refine named_sizes (.cons n g gs) ns ns' c c' hl hl' hs hs' hc hc' ?_
    obtain ⟨x, xs, rfl, -, -⟩ := bindTags_cons hc
    obtain ⟨x', xs', rfl, -, -⟩ := bindTags_cons hc'
    intro v
    obtain ⟨v', hv⟩ := hw v
    simp only [write, Json.obj.injEq] at hv
    exact ⟨v', by simpa only [writeNamed] using hv⟩
  | .variant .nil, ns, ns', b, b', hl, hl', _, _, _, _, _ => no_sizes (by rfl) hl hl'
  | .variant (.cons n g gs), ns, ns', b, b', hl, hl', hs, hs', h, h', hw => by
    simp only [Tag.bind] at h h'
    split at h
    · rename_i c cs h1 h2
      split at h'
      · rename_i c' cs' h1' h2'
        cases h; cases h'
        refine alts_sizes (.cons n g gs) 0 ns ns' (.cons n c cs) (.cons n c' cs') hl hl' hs hs'
          (by simp only [Tags.bind, h1, h2]) (by simp only [Tags.bind, h1', h2']) fun v => ?_
        obtain ⟨v', hv⟩ := hw v
        refine ⟨v', ?_⟩
        match v, v', hv with
        | .inl _, .inl _, hv => simpa only [write, writeAlts] using hv
        | .inl _, .inr _, hv => simpa only [write, writeAlts] using hv
        | .inr _, .inl _, hv => simpa only [write, writeAlts] using hv
        | .inr _, .inr _, hv => simpa only [write, writeAlts] using hv
      · cases h'
    · cases h
theorem many_sizes : ∀ (gs : Tags) (ns ns' : List Nat) (bs bs' : Tys), ns.length = gs.fixed →
    ns'.length = gs.fixed → (∀ n ∈ ns, 4 * n < 2 ^ 31) → (∀ n ∈ ns', 4 * n < 2 ^ 31) →
    gs.bind ns = some bs → gs.bind ns' = some bs' →
    (∀ v : members bs, ∃ v' : members bs', writeMany bs' v' = writeMany bs v) → ns = ns'
  | .nil, ns, ns', bs, bs', hl, hl', _, _, _, _, _ => by
    simp only [Tags.fixed] at hl hl'
    rw [List.length_eq_zero_iff.mp hl, List.length_eq_zero_iff.mp hl']
  | .cons n g gs, ns, ns', bs, bs', hl, hl', hs, hs', h, h', hw => by
    obtain ⟨c, cs, rfl, h1, h2⟩ := bindTags_cons h
    obtain ⟨c', cs', rfl, h1', h2'⟩ := bindTags_cons h'
    simp only [Tags.fixed] at hl hl'
    have he := bind_empty g _ c h1
    have he' := bind_empty g _ c' h1'
    have ht : ∀ xs : List Nat, xs.length = g.fixed + gs.fixed → (xs.take g.fixed).length = g.fixed ∧
        (xs.drop g.fixed).length = gs.fixed := fun xs hx => by
      rw [List.length_take, List.length_drop]; omega
    have a := ht ns hl
    have a' := ht ns' hl'
    have s1 := small_take g.fixed hs
    have s1' := small_take g.fixed hs'
    cases hg : g.isEmpty with
    | true =>
      rw [hg] at he he'
      refine parts hl hl' (no_sizes (empty_fixed g hg) a.1 a'.1)
        (many_sizes gs _ _ cs cs' a.2 a'.2 s1.2 s1'.2 h2 h2' fun v => ?_)
      obtain ⟨v', hv⟩ := hw (init c, v)
      simp only [writeMany, he, he', if_true] at hv
      exact ⟨v'.2, hv⟩
    | false =>
      rw [hg] at he he'
      refine parts hl hl' (tag_sizes g _ _ c c' a.1 a'.1 s1.1 s1'.1 h1 h1' fun v => ?_)
        (many_sizes gs _ _ cs cs' a.2 a'.2 s1.2 s1'.2 h2 h2' fun v => ?_)
      · obtain ⟨v', hv⟩ := hw (v, initAll cs)
        simp only [writeMany, he, he', Bool.false_eq_true, if_false, List.cons.injEq] at hv
        exact ⟨v'.1, hv.1⟩
      · obtain ⟨v', hv⟩ := hw (init c, v)
        simp only [writeMany, he, he', Bool.false_eq_true, if_false, List.cons.injEq] at hv
        exact ⟨v'.2, hv.2⟩
theorem named_sizes : ∀ (gs : Tags) (ns ns' : List Nat) (bs bs' : Tys), ns.length = gs.fixed →
    ns'.length = gs.fixed → (∀ n ∈ ns, 4 * n < 2 ^ 31) → (∀ n ∈ ns', 4 * n < 2 ^ 31) →
    gs.bind ns = some bs → gs.bind ns' = some bs' →
    (∀ v : members bs, ∃ v' : members bs', writeNamed bs' v' = writeNamed bs v) → ns = ns'
  | .nil, ns, ns', bs, bs', hl, hl', _, _, _, _, _ => by
    simp only [Tags.fixed] at hl hl'
    rw [List.length_eq_zero_iff.mp hl, List.length_eq_zero_iff.mp hl']
  | .cons n g gs, ns, ns', bs, bs', hl, hl', hs, hs', h, h', hw => by
    obtain ⟨c, cs, rfl, h1, h2⟩ := bindTags_cons h
    obtain ⟨c', cs', rfl, h1', h2'⟩ := bindTags_cons h'
    simp only [Tags.fixed] at hl hl'
    have ht : ∀ xs : List Nat, xs.length = g.fixed + gs.fixed → (xs.take g.fixed).length = g.fixed ∧
        (xs.drop g.fixed).length = gs.fixed := fun xs hx => by
      rw [List.length_take, List.length_drop]; omega
    have a := ht ns hl
    have a' := ht ns' hl'
    have s1 := small_take g.fixed hs
    have s1' := small_take g.fixed hs'
    refine parts hl hl' (tag_sizes g _ _ c c' a.1 a'.1 s1.1 s1'.1 h1 h1' fun v => ?_)
      (named_sizes gs _ _ cs cs' a.2 a'.2 s1.2 s1'.2 h2 h2' fun v => ?_)
    · obtain ⟨v', hv⟩ := hw (v, initAll cs)
      simp only [writeNamed, List.cons.injEq, Prod.mk.injEq, true_and] at hv
      exact ⟨v'.1, hv.1⟩
    · obtain ⟨v', hv⟩ := hw (init c, v)
      simp only [writeNamed, List.cons.injEq, Prod.mk.injEq, true_and] at hv
      exact ⟨v'.2, hv.2⟩
theorem alts_sizes : ∀ (gs : Tags) (i : Nat) (ns ns' : List Nat) (bs bs' : Tys), ns.length = gs.fixed →
    ns'.length = gs.fixed → (∀ n ∈ ns, 4 * n < 2 ^ 31) → (∀ n ∈ ns', 4 * n < 2 ^ 31) →
    gs.bind ns = some bs → gs.bind ns' = some bs' →
    (∀ v : alts bs, ∃ v' : alts bs', writeAlts bs' i v' = writeAlts bs i v) → ns = ns'
  | .nil, i, ns, ns', bs, bs', hl, hl', _, _, _, _, _ => by
    simp only [Tags.fixed] at hl hl'
    rw [List.length_eq_zero_iff.mp hl, List.length_eq_zero_iff.mp hl']
  | .cons n g gs, i, ns, ns', bs, bs', hl, hl', hs, hs', h, h', hw => by
    obtain ⟨c, cs, rfl, h1, h2⟩ := bindTags_cons h
    obtain ⟨c', cs', rfl, h1', h2'⟩ := bindTags_cons h'
    simp only [Tags.fixed] at hl hl'
    have he := bind_empty g _ c h1
    have he' := bind_empty g _ c' h1'
    have ht : ∀ xs : List Nat, xs.length = g.fixed + gs.fixed → (xs.take g.fixed).length = g.fixed ∧
        (xs.drop g.fixed).length = gs.fixed := fun xs hx => by
      rw [List.length_take, List.length_drop]; omega
    have a := ht ns hl
    have a' := ht ns' hl'
    have s1 := small_take g.fixed hs
    have s1' := small_take g.fixed hs'
    refine parts hl hl' ?_ (alts_sizes gs (i + 1) _ _ cs cs' a.2 a'.2 s1.2 s1'.2 h2 h2' fun v => ?_)
    · cases hg : g.isEmpty with
      | true => exact no_sizes (empty_fixed g hg) a.1 a'.1
      | false =>
        refine tag_sizes g _ _ c c' a.1 a'.1 s1.1 s1'.1 h1 h1' fun v => ?_
        obtain ⟨v', hv⟩ := hw (.inl v)
        match v', hv with
        | .inl x, hv =>
          simp only [writeAlts] at hv
          exact ⟨x, alt_value (by rw [he, he']) (by rw [he', hg]) hv⟩
        | .inr y, hv =>
          simp only [writeAlts] at hv
          obtain ⟨t, k, j, hk, e⟩ := alts_index cs' (i + 1) y
          rw [e] at hv
          have := alt_index _ _ _ _ _ _ hv
          omega
    · obtain ⟨v', hv⟩ := hw (.inr v)
      match v', hv with
      | .inr y, hv =>
        simp only [writeAlts] at hv
        exact ⟨y, hv⟩
      | .inl x, hv =>
        simp only [writeAlts] at hv
        obtain ⟨t, k, j, hk, e⟩ := alts_index cs (i + 1) v
        rw [e] at hv
        have := alt_index _ _ _ _ _ _ hv
        omega
end

/-- C102: two types with the same text, and so with the same signature, have the same format on the wire
exactly if their buffers of fixed size have the same sizes, one by one: every other difference of the
formats is in the text.  (Sizes of 2^29 bytes and more, which cannot be written, are left out.) -/
theorem same_wire_exact (chr : Byte → Text) (hc : Writes chr) (f f' : List Byte) (t t' : CppTy)
    (g g' : Tag) (hg : tagOf t = some g) (hg' : tagOf t' = some g') (hn : Spec.Named t) (hn' : Spec.Named t')
    (hs : ∀ n ∈ sizes t, n < 2 ^ 29) (hs' : ∀ n ∈ sizes t', n < 2 ^ 29)
    (h : prettyFunction chr (.ctstr f) g = prettyFunction chr (.ctstr f') g')
    (b b' : Ty) (hb : bindOf t = some b) (hb' : bindOf t' = some b') :
    SameWire b b' ↔ sizes t = sizes t' := by
  constructor
  · intro hw
    obtain ⟨-, rfl⟩ := text_unique hc f f' g g' (tagOf_named t g hn hg) (tagOf_named t' g' hn' hg') h
    refine tag_sizes g _ _ b b' (sizes_length t g hg) (sizes_length t' g hg')
      (fun n hm => by have := hs n hm; omega) (fun n hm => by have := hs' n hm; omega)
      (by rw [← bind_tag t g hg, hb]) (by rw [← bind_tag t' g hg', hb']) hw.1
  · exact fun e => (same_text_same_wire_partial chr hc f f' t t' g g' hg hg' hn hn' e h).2.2 b b' hb hb'

/-- A variant with buffers of 16 and of 20 bytes, and one with 16 and 16. -/
def sampleBufs (n : Nat) : CppTy :=
  .var (.cls (ascii "app::removed")) (.cons [] (.fixed 16) (.cons [] (.cont (.seq (.cons [] (.fixed n) (.cons [] .str .nil)))) .nil))
example : tagOf (sampleBufs 20) = tagOf (sampleBufs 16) ∧ sizes (sampleBufs 20) = [16, 20] ∧
    sizes (sampleBufs 16) = [16, 16] ∧ (bindOf (sampleBufs 20)).isSome = true ∧
    (bindOf (sampleBufs 16)).isSome = true := ⟨rfl, rfl, rfl, rfl, rfl⟩
example (n : Nat) : Spec.Named (sampleBufs n) := by
  refine ⟨⟨by decide, fun f => by cases f <;> decide, by decide⟩, ?_⟩
  simp [Spec.Named, NamedAll]

end Nbdl.ApiSig
