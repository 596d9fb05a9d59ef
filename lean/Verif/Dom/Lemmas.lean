import Verif.Dom.Spec
/-!
# How specifications, documents and render pipes belong together
-/
namespace Nbdl.Dom
open Spec

variable {S : Type}

mutual
/-- The text nodes `ids` and the pipe `ms` were made for the specification, and the states were `o`, the present one
first. -/
def BuiltText (h : Dom) (o : S × List S) : TextSpec S → List Nat → List (Inst S) → Prop
  | .const v, ids, ms => ∃ i, ids = [i] ∧ ms = [.static] ∧ (h.node i).kind = .text v
  | .path f, ids, ms => ∃ i, ids = [i] ∧ ms = [.textPath f i] ∧
      (h.node i).kind = .text ((lastOf o f).getD [])
  | .concat ts, ids, ms => BuiltTexts h o ts ids ms
def BuiltTexts (h : Dom) (o : S × List S) : List (TextSpec S) → List Nat → List (Inst S) → Prop
  | [], ids, ms => ids = [] ∧ ms = []
  | t :: ts, ids, ms => ∃ i1 i2 m1 m2, ids = i1 ++ i2 ∧ ms = m1 ++ m2 ∧ BuiltText h o t i1 m1 ∧
      BuiltTexts h o ts i2 m2
end

mutual
/-- The children `ids` of `p`, the pipe `ms` and the set `fp` of nodes belong to the specification, and
the states were `o`. -/
def Built (h : Dom) (o : S × List S) (p : Nat) : Item S → List Nat → List Nat → List (Inst S) → Prop
  | .elem tag items, ids, fp, ms => ∃ el kfp mid, ids = [el] ∧ fp = el :: kfp ∧
      ms = .static :: (mid ++ [.static]) ∧ (h.node el).kind = .elem tag ∧
      (∀ n, n ∉ attrNames items → (h.node el).attrs n = none) ∧
      (∀ n, n ∉ classNames items → (h.node el).classes n = false) ∧
      BuiltAll h o el items (h.node el).children kfp mid
  | .text t, ids, fp, ms => fp = ids ∧ BuiltText h o t ids ms
  | .attr n v, ids, fp, ms => ids = [] ∧ fp = [] ∧ ms = [.static] ∧ (h.node p).attrs n = some v
  | .attrDyn n f, ids, fp, ms => ids = [] ∧ fp = [] ∧ ms = [.attrDyn n f p] ∧
      (h.node p).attrs n = some (f o.1)
  | .attrIf n f, ids, fp, ms => ids = [] ∧ fp = [] ∧ ms = [.attrIf n f p] ∧
      (h.node p).attrs n = if lastOf o f = some true then some [] else none
  | .classIf n f, ids, fp, ms => ids = [] ∧ fp = [] ∧ ms = [.classIf n f p] ∧
      (h.node p).classes n = (lastOf o f == some true)
  | .classWhen n f, ids, fp, ms => ids = [] ∧ fp = [] ∧ ms = [.classWhen n f p] ∧
      (h.node p).classes n = f o.1
  | .branch f bs, ids, fp, ms => ∃ span cs subs cur c kfp, ids = [c] ∧ cs[cur]? = some c ∧ fp = span :: kfp ∧
      ms = [.branch f p (some cur) (cs.map some) subs] ∧ BuiltEach h o bs cs kfp subs ∧
      (h.node c).parent = some p ∧ f o.1 = some cur ∧
      ∀ c' ∈ cs, c' ≠ c → (h.node c').parent = none ∨ (h.node c').parent = some span
  | .forEach f body, ids, fp, ms => ∃ parts : List (S × List Nat × List Nat × List (Inst S)),
      ids = parts.flatMap (·.2.1) ∧ fp = parts.flatMap (·.2.2.1) ∧ ms = [.forEach f (flatten body) p] ∧
      ¬ IsAttr body ∧ (∀ q ∈ parts, Built h (q.1, []) p body q.2.1 q.2.2.1 q.2.2.2) ∧
      parts.map (·.1) = (f o.1).getD []
  | .html v, ids, fp, ms => ∃ i, ids = [i] ∧ fp = [i] ∧ ms = [.static] ∧ (h.node i).kind = .raw v
  | .noop, ids, fp, ms => ids = [] ∧ fp = [] ∧ ms = []
def BuiltAll (h : Dom) (o : S × List S) (p : Nat) : List (Item S) → List Nat → List Nat → List (Inst S) → Prop
  | [], ids, fp, ms => ids = [] ∧ fp = [] ∧ ms = []
  | x :: xs, ids, fp, ms => ∃ i1 i2 f1 f2 m1 m2, ids = i1 ++ i2 ∧ fp = f1 ++ f2 ∧ ms = m1 ++ m2 ∧
      Built h o p x i1 f1 m1 ∧ BuiltAll h o p xs i2 f2 m2
/-- The branches of a match, shown or not. -/
def BuiltEach (h : Dom) (o : S × List S) : List (Item S) → List Nat → List Nat →
    List (List (Inst S)) → Prop
  | [], cs, fp, mss => cs = [] ∧ fp = [] ∧ mss = []
  | x :: xs, cs, fp, mss => ∃ c cs' f1 f2 m ms', cs = c :: cs' ∧ fp = f1 ++ f2 ∧ mss = m :: ms' ∧
      OneNode x ∧ Built h o 0 x [c] f1 m ∧
      BuiltEach h o xs cs' f2 ms'
end

theorem attrNames_cons (x : Item S) (xs : List (Item S)) : attrNames (x :: xs) = attrNames [x] ++ attrNames xs := by
  cases x <;> rfl

theorem classNames_cons (x : Item S) (xs : List (Item S)) :
    classNames (x :: xs) = classNames [x] ++ classNames xs := by
  cases x <;> rfl

theorem one_names {x : Item S} (h : OneNode x) : attrNames [x] = [] ∧ classNames [x] = [] := by
  cases x <;> first | exact ⟨rfl, rfl⟩ | cases h

theorem notAttr_names {x : Item S} (h : ¬ IsAttr x) : attrNames [x] = [] ∧ classNames [x] = [] := by
  cases x <;> first | exact ⟨rfl, rfl⟩ | exact absurd trivial h

/-! ### Owned nodes -/

mutual
theorem built_sub {h : Dom} {o : S × List S} {p : Nat} : ∀ (x : Item S) {ids fp ms}, Built h o p x ids fp ms →
    ∀ i ∈ ids, i ∈ fp
  | .elem _ _, _, _, _, hb, i, hi => by
    obtain ⟨el, kfp, mid, rfl, rfl, -⟩ := by simpa only [Built] using hb
    simp at hi; simp [hi]
  | .text _, _, _, _, hb, i, hi => by rw [Built] at hb; rw [hb.1]; exact hi
  | .attr .., _, _, _, hb, i, hi => by rw [Built] at hb; rw [hb.1] at hi; cases hi
  | .attrDyn .., _, _, _, hb, i, hi => by rw [Built] at hb; rw [hb.1] at hi; cases hi
  | .attrIf .., _, _, _, hb, i, hi => by rw [Built] at hb; rw [hb.1] at hi; cases hi
  | .classIf .., _, _, _, hb, i, hi => by rw [Built] at hb; rw [hb.1] at hi; cases hi
  | .classWhen .., _, _, _, hb, i, hi => by rw [Built] at hb; rw [hb.1] at hi; cases hi
  | .branch f bs, _, _, _, hb, i, hi => by
    rw [Built] at hb
    obtain ⟨span, cs, subs, cur, c, kfp, rfl, h1, rfl, -, h2, -⟩ := hb
    simp only [List.mem_singleton] at hi
    subst hi
    exact List.mem_cons_of_mem _ (builtEach_sub bs h2 _ (List.mem_of_getElem? h1))
  | .forEach f body, _, _, _, hb, i, hi => by
    rw [Built] at hb
    obtain ⟨parts, rfl, rfl, -, -, h1, -⟩ := hb
    obtain ⟨q, hq, hi⟩ := List.mem_flatMap.1 hi
    exact List.mem_flatMap.2 ⟨q, hq, built_sub body (h1 q hq) i hi⟩
  | .html _, _, _, _, hb, i, hi => by
    rw [Built] at hb
    obtain ⟨j, rfl, rfl, -⟩ := hb
    exact hi
  | .noop, _, _, _, hb, i, hi => by rw [Built] at hb; rw [hb.1] at hi; cases hi
theorem builtAll_sub {h : Dom} {o : S × List S} {p : Nat} : ∀ (xs : List (Item S)) {ids fp ms},
    BuiltAll h o p xs ids fp ms → ∀ i ∈ ids, i ∈ fp
  | [], _, _, _, hb, i, hi => by rw [BuiltAll] at hb; rw [hb.1] at hi; cases hi
  | x :: xs, _, _, _, hb, i, hi => by
    rw [BuiltAll] at hb
    obtain ⟨i1, i2, f1, f2, m1, m2, rfl, rfl, rfl, h1, h2⟩ := hb
    rcases List.mem_append.1 hi with hi | hi
    · exact List.mem_append_left _ (built_sub x h1 i hi)
    · exact List.mem_append_right _ (builtAll_sub xs h2 i hi)
theorem builtEach_sub {h : Dom} {o : S × List S} : ∀ (xs : List (Item S)) {cs fp mss},
    BuiltEach h o xs cs fp mss → ∀ i ∈ cs, i ∈ fp
  | [], _, _, _, hb, i, hi => by rw [BuiltEach] at hb; rw [hb.1] at hi; cases hi
  | x :: xs, _, _, _, hb, i, hi => by
    rw [BuiltEach] at hb
    obtain ⟨c, cs', f1, f2, m, ms', rfl, rfl, rfl, -, h1, h2⟩ := hb
    rcases List.mem_cons.1 hi with rfl | hi
    · exact List.mem_append_left _ (built_sub x h1 i (by simp))
    · exact List.mem_append_right _ (builtEach_sub xs h2 i hi)
end

/-! ### A single node does not depend on its parent -/

theorem built_one {h : Dom} {o : S × List S} {p q : Nat} {x : Item S} {ids fp ms} (h1 : OneNode x)
    (hb : Built h o p x ids fp ms) : Built h o q x ids fp ms := by
  cases x <;> first | exact h1.elim | (rw [Built] at hb ⊢; exact hb)

theorem one_id {h : Dom} {o : S × List S} {p : Nat} {x : Item S} {ids fp ms} (h1 : OneNode x)
    (hb : Built h o p x ids fp ms) : ∃ c, ids = [c] := by
  cases x with
  | elem tag items => rw [Built] at hb; obtain ⟨el, _, _, e, _⟩ := hb; exact ⟨el, e⟩
  | text t =>
    rw [Built] at hb
    cases t with
    | const v => obtain ⟨-, hb⟩ := hb; rw [BuiltText] at hb; obtain ⟨i, e, _⟩ := hb; exact ⟨i, e⟩
    | path f => obtain ⟨-, hb⟩ := hb; rw [BuiltText] at hb; obtain ⟨i, e, _⟩ := hb; exact ⟨i, e⟩
    | concat ts => exact h1.elim
  | _ => exact h1.elim

/-! ### Changes elsewhere do not matter -/

/-- Equal except for the parent. -/
def SameUp (a b : Node) : Prop :=
  b.kind = a.kind ∧ b.attrs = a.attrs ∧ b.classes = a.classes ∧ b.children = a.children

theorem SameUp.of_eq {a b : Node} (h : b = a) : SameUp a b := by subst h; exact ⟨rfl, rfl, rfl, rfl⟩

mutual
theorem builtText_frame {h h' : Dom} {o : S × List S} : ∀ (t : TextSpec S) {ids ms}, BuiltText h o t ids ms →
    (∀ i ∈ ids, (h'.node i).kind = (h.node i).kind) → BuiltText h' o t ids ms
  | .const _, _, _, hb, hk => by
    rw [BuiltText] at hb ⊢
    obtain ⟨i, rfl, h2, h3⟩ := hb
    exact ⟨i, rfl, h2, by rw [hk i (by simp), h3]⟩
  | .path f, _, _, hb, hk => by
    rw [BuiltText] at hb ⊢
    obtain ⟨i, rfl, h2, h3⟩ := hb
    exact ⟨i, rfl, h2, by rw [hk i (by simp), h3]⟩
  | .concat ts, _, _, hb, hk => by rw [BuiltText] at hb ⊢; exact builtTexts_frame ts hb hk
theorem builtTexts_frame {h h' : Dom} {o : S × List S} : ∀ (ts : List (TextSpec S)) {ids ms},
    BuiltTexts h o ts ids ms → (∀ i ∈ ids, (h'.node i).kind = (h.node i).kind) → BuiltTexts h' o ts ids ms
  | [], _, _, hb, _ => by rw [BuiltTexts] at hb ⊢; exact hb
  | t :: ts, _, _, hb, hk => by
    rw [BuiltTexts] at hb ⊢
    obtain ⟨i1, i2, m1, m2, rfl, e2, h1, h2⟩ := hb
    exact ⟨i1, i2, m1, m2, rfl, e2, builtText_frame t h1 fun i hi => hk i (by simp [hi]),
      builtTexts_frame ts h2 fun i hi => hk i (by simp [hi])⟩
end

mutual
theorem built_frame {h h' : Dom} {o : S × List S} {p : Nat} : ∀ (x : Item S) {ids fp ms}, Built h o p x ids fp ms →
    (∀ i ∈ fp, h'.node i = h.node i) → (∀ n ∈ attrNames [x], (h'.node p).attrs n = (h.node p).attrs n) →
    (∀ n ∈ classNames [x], (h'.node p).classes n = (h.node p).classes n) → Built h' o p x ids fp ms
  | .elem _ items, _, _, _, hb, hk, _, _ => by
    rw [Built] at hb ⊢
    obtain ⟨el, kfp, mid, rfl, rfl, e3, h1, h2, h3, h4⟩ := hb
    have e := hk el (by simp)
    refine ⟨el, kfp, mid, rfl, rfl, e3, by rw [e, h1], by rw [e]; exact h2, by rw [e]; exact h3, ?_⟩
    rw [e]
    exact builtAll_frame items h4 (fun i hi => hk i (by simp [hi])) (fun n _ => by rw [e]) fun n _ => by rw [e]
  | .text t, _, _, _, hb, hk, _, _ => by
    rw [Built] at hb ⊢
    obtain ⟨rfl, hb⟩ := hb
    exact ⟨rfl, builtText_frame t hb fun i hi => by rw [hk i hi]⟩
  | .attr n v, _, _, _, hb, _, ha, _ => by
    rw [Built] at hb ⊢
    exact ⟨hb.1, hb.2.1, hb.2.2.1, by rw [ha n (by simp [attrNames]), hb.2.2.2]⟩
  | .attrDyn n f, _, _, _, hb, _, ha, _ => by
    rw [Built] at hb ⊢
    exact ⟨hb.1, hb.2.1, hb.2.2.1, by rw [ha n (by simp [attrNames]), hb.2.2.2]⟩
  | .attrIf n f, _, _, _, hb, _, ha, _ => by
    rw [Built] at hb ⊢
    exact ⟨hb.1, hb.2.1, hb.2.2.1, by rw [ha n (by simp [attrNames]), hb.2.2.2]⟩
  | .classIf n f, _, _, _, hb, _, _, hc => by
    rw [Built] at hb ⊢
    exact ⟨hb.1, hb.2.1, hb.2.2.1, by rw [hc n (by simp [classNames]), hb.2.2.2]⟩
  | .classWhen n f, _, _, _, hb, _, _, hc => by
    rw [Built] at hb ⊢
    exact ⟨hb.1, hb.2.1, hb.2.2.1, by rw [hc n (by simp [classNames]), hb.2.2.2]⟩
  | .branch f bs, _, _, _, hb, hk, _, _ => by
    rw [Built] at hb ⊢
    obtain ⟨span, cs, subs, cur, c, kfp, e1, e2, rfl, e4, h2, h3, h4, h5⟩ := hb
    have hcs : ∀ c ∈ cs, h'.node c = h.node c := fun c hc =>
      hk c (List.mem_cons_of_mem _ (builtEach_sub bs h2 c hc))
    have hc := hcs c (List.mem_of_getElem? e2)
    refine ⟨span, cs, subs, cur, c, kfp, e1, e2, rfl, e4, builtEach_frame bs h2 fun i hi => hk i (by simp [hi]),
      by rw [hc, h3], h4, fun c' hc' hne => by rw [hcs c' hc']; exact h5 c' hc' hne⟩
  | .forEach f body, _, _, _, hb, hk, ha, hc => by
    rw [Built] at hb ⊢
    obtain ⟨parts, e1, rfl, e3, h0, h1, h2⟩ := hb
    refine ⟨parts, e1, rfl, e3, h0, fun q hq => built_frame body (h1 q hq) (fun i hi => hk i ?_) ?_ ?_, h2⟩
    · exact List.mem_flatMap.2 ⟨q, hq, hi⟩
    · rw [(notAttr_names h0).1]; simp
    · rw [(notAttr_names h0).2]; simp
  | .html _, _, _, _, hb, hk, _, _ => by
    rw [Built] at hb ⊢
    obtain ⟨i, rfl, rfl, e3, h1⟩ := hb
    exact ⟨i, rfl, rfl, e3, by rw [hk i (by simp), h1]⟩
  | .noop, _, _, _, hb, _, _, _ => by rw [Built] at hb ⊢; exact hb
theorem builtAll_frame {h h' : Dom} {o : S × List S} {p : Nat} : ∀ (xs : List (Item S)) {ids fp ms},
    BuiltAll h o p xs ids fp ms →
    (∀ i ∈ fp, h'.node i = h.node i) → (∀ n ∈ attrNames xs, (h'.node p).attrs n = (h.node p).attrs n) →
    (∀ n ∈ classNames xs, (h'.node p).classes n = (h.node p).classes n) → BuiltAll h' o p xs ids fp ms
  | [], _, _, _, hb, _, _, _ => by rw [BuiltAll] at hb ⊢; exact hb
  | x :: xs, _, _, _, hb, hk, ha, hc => by
    rw [BuiltAll] at hb ⊢
    obtain ⟨i1, i2, f1, f2, m1, m2, e1, rfl, e3, h1, h2⟩ := hb
    rw [attrNames_cons] at ha
    rw [classNames_cons] at hc
    exact ⟨i1, i2, f1, f2, m1, m2, e1, rfl, e3,
      built_frame x h1 (fun i hi => hk i (by simp [hi])) (fun n hn => ha n (by simp [hn])) fun n hn => hc n (by simp [hn]),
      builtAll_frame xs h2 (fun i hi => hk i (by simp [hi])) (fun n hn => ha n (by simp [hn])) fun n hn => hc n (by simp [hn])⟩
theorem builtEach_frame {h h' : Dom} {o : S × List S} : ∀ (xs : List (Item S)) {cs fp mss},
    BuiltEach h o xs cs fp mss → (∀ i ∈ fp, h'.node i = h.node i) → BuiltEach h' o xs cs fp mss
  | [], _, _, _, hb, _ => by rw [BuiltEach] at hb ⊢; exact hb
  | x :: xs, _, _, _, hb, hk => by
    rw [BuiltEach] at hb ⊢
    obtain ⟨c, cs', f1, f2, m, ms', e1, rfl, e3, h0, h1, h2⟩ := hb
    refine ⟨c, cs', f1, f2, m, ms', e1, rfl, e3, h0, ?_, builtEach_frame xs h2 fun i hi => hk i (by simp [hi])⟩
    refine built_frame x h1 (fun i hi => hk i (by simp [hi])) ?_ ?_
    · rw [(one_names h0).1]; simp
    · rw [(one_names h0).2]; simp
end

/-- The parent of a single node may change as well. -/
theorem built_frame_one {h h' : Dom} {o : S × List S} {p c : Nat} {x : Item S} {fp ms} (h1 : OneNode x)
    (hb : Built h o p x [c] fp ms) (hn : fp.Nodup) (hk : ∀ i ∈ fp, i ≠ c → h'.node i = h.node i)
    (hc : SameUp (h.node c) (h'.node c)) : Built h' o p x [c] fp ms := by
  cases x with
  | elem tag items =>
    rw [Built] at hb ⊢
    obtain ⟨el, kfp, mid, e1, rfl, e3, h1, h2, h3, h4⟩ := hb
    obtain rfl : c = el := by simpa using e1
    obtain ⟨a, b, d, e⟩ := hc
    rw [List.nodup_cons] at hn
    refine ⟨c, kfp, mid, rfl, rfl, e3, by rw [a, h1], by rw [b]; exact h2, by rw [d]; exact h3, ?_⟩
    rw [e]
    refine builtAll_frame items h4 (fun i hi => hk i (by simp [hi]) ?_) (fun n _ => by rw [b]) fun n _ => by rw [d]
    rintro rfl
    exact hn.1 hi
  | text t =>
    rw [Built] at hb ⊢
    obtain ⟨rfl, hb⟩ := hb
    refine ⟨rfl, builtText_frame t hb fun i hi => ?_⟩
    simp only [List.mem_singleton] at hi
    rw [hi, hc.1]
  | _ => exact h1.elim

theorem builtEach_frame_one {h h' : Dom} {o : S × List S} : ∀ (xs : List (Item S)) {cs fp mss},
    BuiltEach h o xs cs fp mss → fp.Nodup → (∀ i ∈ fp, i ∉ cs → h'.node i = h.node i) →
    (∀ i ∈ cs, SameUp (h.node i) (h'.node i)) → BuiltEach h' o xs cs fp mss
  | [], _, _, _, hb, _, _, _ => by rw [BuiltEach] at hb ⊢; exact hb
  | x :: xs, _, _, _, hb, hn, hk, hs => by
    rw [BuiltEach] at hb ⊢
    obtain ⟨c, cs', f1, f2, m, ms', rfl, rfl, e3, h0, h1, h2⟩ := hb
    rw [List.nodup_append] at hn
    refine ⟨c, cs', f1, f2, m, ms', rfl, rfl, e3, h0, ?_, ?_⟩
    · refine built_frame_one h0 h1 hn.1 (fun i hi hne => hk i (by simp [hi]) ?_) (hs c (by simp))
      simp only [List.mem_cons, not_or]
      exact ⟨hne, fun hc => hn.2.2 i hi i (builtEach_sub xs h2 i hc) rfl⟩
    · refine builtEach_frame_one xs h2 hn.2.1 (fun i hi hne => hk i (by simp [hi]) ?_) fun i hi => hs i (by simp [hi])
      simp only [List.mem_cons, not_or]
      refine ⟨?_, hne⟩
      rintro rfl
      exact hn.2.2 i (built_sub x h1 i (by simp)) i hi rfl

/-! ### Changes to the document -/

/-- Of the nodes there were, only those in `fp` changed, and in `p` only children and the given attributes and
classes. -/
structure Chg (h h' : Dom) (p : Nat) (fp : List Nat) (an cn : List Text) : Prop where
  next : h.next ≤ h'.next
  other : ∀ i, i < h.next → i ∉ fp → i ≠ p → h'.node i = h.node i
  kind : (h'.node p).kind = (h.node p).kind
  parent : (h'.node p).parent = (h.node p).parent
  attrs : ∀ n, n ∉ an → (h'.node p).attrs n = (h.node p).attrs n
  classes : ∀ n, n ∉ cn → (h'.node p).classes n = (h.node p).classes n

/-- Of the nodes there were, only those in `fp` changed. -/
structure Own (h h' : Dom) (fp : List Nat) : Prop where
  next : h.next ≤ h'.next
  other : ∀ i, i < h.next → i ∉ fp → h'.node i = h.node i

theorem Chg.refl (h : Dom) (p : Nat) (fp : List Nat) (an cn : List Text) : Chg h h p fp an cn :=
  ⟨Nat.le_refl _, fun _ _ _ _ => rfl, rfl, rfl, fun _ _ => rfl, fun _ _ => rfl⟩

theorem Own.refl (h : Dom) (fp : List Nat) : Own h h fp := ⟨Nat.le_refl _, fun _ _ _ => rfl⟩

theorem Chg.trans {h h' h'' : Dom} {p : Nat} {fp fp' : List Nat} {an an' cn cn' : List Text}
    (a : Chg h h' p fp an cn) (b : Chg h' h'' p fp' an' cn') (hf : ∀ i ∈ fp', i ∈ fp ∨ h.next ≤ i) :
    Chg h h'' p fp (an ++ an') (cn ++ cn') where
  next := Nat.le_trans a.next b.next
  other i h1 h2 h3 := by
    rw [b.other i (Nat.lt_of_lt_of_le h1 a.next) (fun hi => ?_) h3, a.other i h1 h2 h3]
    rcases hf i hi with h | h
    · exact h2 h
    · omega
  kind := by rw [b.kind, a.kind]
  parent := by rw [b.parent, a.parent]
  attrs n hn := by
    simp only [List.mem_append, not_or] at hn
    rw [b.attrs n hn.2, a.attrs n hn.1]
  classes n hn := by
    simp only [List.mem_append, not_or] at hn
    rw [b.classes n hn.2, a.classes n hn.1]

theorem Own.trans {h h' h'' : Dom} {fp fp' : List Nat} (a : Own h h' fp) (b : Own h' h'' fp')
    (hf : ∀ i ∈ fp', i ∈ fp ∨ h.next ≤ i) : Own h h'' fp where
  next := Nat.le_trans a.next b.next
  other i h1 h2 := by
    rw [b.other i (Nat.lt_of_lt_of_le h1 a.next) (fun hi => ?_), a.other i h1 h2]
    rcases hf i hi with h | h
    · exact h2 h
    · omega

theorem Chg.mono {h h' : Dom} {p : Nat} {fp fp' : List Nat} {an cn : List Text}
    (a : Chg h h' p fp an cn) (hf : ∀ i ∈ fp, i < h.next → i ∈ fp') : Chg h h' p fp' an cn where
  next := a.next
  other i h1 h2 h3 := a.other i h1 (fun hi => h2 (hf i hi h1)) h3
  kind := a.kind
  parent := a.parent
  attrs := a.attrs
  classes := a.classes

theorem Own.mono {h h' : Dom} {fp fp' : List Nat} (a : Own h h' fp) (hf : ∀ i ∈ fp, i < h.next → i ∈ fp') :
    Own h h' fp' :=
  ⟨a.next, fun i h1 h2 => a.other i h1 (fun hi => h2 (hf i hi h1))⟩

theorem Own.chg {h h' : Dom} {p : Nat} {fp : List Nat} (a : Own h h' fp) (hp : p ∉ fp) (hb : p < h.next)
    (an cn : List Text) : Chg h h' p fp an cn := by
  have e := a.other p hb hp
  exact ⟨a.next, fun i h1 h2 _ => a.other i h1 h2, by rw [e], by rw [e], fun _ _ => by rw [e], fun _ _ => by rw [e]⟩

theorem Chg.own {h h' : Dom} {p : Nat} {fp : List Nat} {an cn : List Text} (a : Chg h h' p fp an cn) :
    Own h h' (p :: fp) :=
  ⟨a.next, fun i h1 h2 => a.other i h1 (fun hi => h2 (by simp [hi])) (fun e => h2 (by simp [e]))⟩

/-! ### Operations on the document -/

@[simp] theorem node_set (h : Dom) (i j : Nat) (n : Node) : (h.set i n).node j = if j = i then n else h.node j := rfl
@[simp] theorem next_set (h : Dom) (i : Nat) (n : Node) : (h.set i n).next = h.next := rfl

@[simp] theorem node_create (h : Dom) (k : Kind) (j : Nat) : (h.create k).node j =
    if j = h.next then ⟨k, fun _ => none, fun _ => false, [], none⟩ else h.node j := rfl
@[simp] theorem next_create (h : Dom) (k : Kind) : (h.create k).next = h.next + 1 := rfl

theorem next_detach (h : Dom) (c : Nat) : (h.detach c).next = h.next := by
  rw [Dom.detach]; split <;> rfl

@[simp] theorem next_append (h : Dom) (p c : Nat) : (h.append p c).next = h.next := next_detach h c

theorem detach_orphan {h : Dom} {c : Nat} (hc : (h.node c).parent = none) : h.detach c = h := by
  rw [Dom.detach, hc]

/-- A new node is appended. -/
theorem create_append (h : Dom) (k : Kind) (p : Nat) (hp : p < h.next) :
    let h' := (h.create k).append p h.next
    h'.next = h.next + 1 ∧ (∀ i, i < h.next → i ≠ p → h'.node i = h.node i) ∧
      h'.node p = { h.node p with children := (h.node p).children ++ [h.next] } ∧
      h'.node h.next = ⟨k, fun _ => none, fun _ => false, [], some p⟩ := by
  have e : (h.create k).detach h.next = h.create k := detach_orphan (by simp)
  have hne : p ≠ h.next := by omega
  refine ⟨by simp, ?_, ?_, ?_⟩
  · intro i h1 h2
    have : i ≠ h.next := by omega
    simp only [Dom.append, e]
    simp [h2, this]
  · simp only [Dom.append, e]
    simp [hne]
  · simp only [Dom.append, e]
    simp [Ne.symm hne]

theorem create_append_chg (h : Dom) (k : Kind) (p : Nat) (hp : p < h.next) :
    Chg h ((h.create k).append p h.next) p [] [] [] := by
  obtain ⟨h1, h2, h3, -⟩ := create_append h k p hp
  exact ⟨by omega, fun i a _ b => h2 i a b, by rw [h3], by rw [h3], fun _ _ => by rw [h3], fun _ _ => by rw [h3]⟩

theorem setAttr_chg (h : Dom) (p : Nat) (n : Text) (v : Option Text) : Chg h (h.setAttr p n v) p [] [n] [] :=
  ⟨Nat.le_refl _, fun i _ _ hi => by simp [Dom.setAttr, hi], by simp [Dom.setAttr], by simp [Dom.setAttr],
    fun m hm => by simp at hm; simp [Dom.setAttr, hm], fun m _ => by simp [Dom.setAttr]⟩

theorem setClass_chg (h : Dom) (p : Nat) (n : Text) (v : Bool) : Chg h (h.setClass p n v) p [] [] [n] :=
  ⟨Nat.le_refl _, fun i _ _ hi => by simp [Dom.setClass, hi], by simp [Dom.setClass], by simp [Dom.setClass],
    fun m _ => by simp [Dom.setClass], fun m hm => by simp at hm; simp [Dom.setClass, hm]⟩

theorem setKind_own (h : Dom) (i : Nat) (k : Kind) : Own h (h.setKind i k) [i] :=
  ⟨Nat.le_refl _, fun j _ hj => by simp at hj; simp [Dom.setKind, hj]⟩

@[simp] theorem setAttr_children (h : Dom) (p i : Nat) (n : Text) (v : Option Text) :
    ((h.setAttr p n v).node i).children = (h.node i).children := by
  simp only [Dom.setAttr, node_set]; split <;> simp_all
@[simp] theorem setClass_children (h : Dom) (p i : Nat) (n : Text) (v : Bool) :
    ((h.setClass p n v).node i).children = (h.node i).children := by
  simp only [Dom.setClass, node_set]; split <;> simp_all

/-- The children go, everything else stays. -/
theorem clear_chg (h : Dom) (p : Nat) (fp : List Nat) (hc : ∀ i ∈ (h.node p).children, i ∈ fp) (hp : p ∉ fp) :
    Chg h (h.clear p) p fp [] [] ∧ ((h.clear p).node p).children = [] ∧ (h.clear p).next = h.next := by
  have h1 : p ∉ (h.node p).children := fun e => hp (hc p e)
  refine ⟨⟨Nat.le_refl _, fun i _ h2 h3 => ?_, ?_, ?_, fun n _ => ?_, fun n _ => ?_⟩, ?_, rfl⟩
  · have : i ∉ (h.node p).children := fun e => h2 (hc i e)
    simp [Dom.clear, this, h3]
  all_goals simp [Dom.clear, h1]

/-! ### Pipes -/

theorem runAll_append (s : S) (a b : List (Instr S)) (h : Dom) (p : Option Nat) :
    runAll s h p (a ++ b) = (runAll s h p a).bind fun r => (runAll s r.1 r.2.1 b).map fun q =>
      (q.1, q.2.1, r.2.2 ++ q.2.2) := by
  induction a generalizing h p with
  | nil =>
    simp only [List.nil_append, runAll, Except.bind]
    cases runAll s h p b <;> rfl
  | cons x a ih =>
    cases p with
    | none => rfl
    | some p =>
      simp only [List.cons_append, runAll, bind]
      cases hx : run s h p x with
      | error e => rfl
      | ok r =>
        obtain ⟨h1, p1, m⟩ := r
        simp only [Except.bind, ih]
        cases runAll s h1 p1 a with
        | error e => rfl
        | ok q =>
          simp only [Except.bind]
          cases runAll s q.1 q.2.1 b with
          | error e => rfl
          | ok q => rfl

theorem updateAll_append (s : S) (a b : List (Inst S)) (h : Dom) :
    updateAll s h (a ++ b) = (updateAll s h a).bind fun r => (updateAll s r.1 b).map fun q =>
      (q.1, r.2 ++ q.2) := by
  induction a generalizing h with
  | nil =>
    simp only [List.nil_append, updateAll, Except.bind]
    cases updateAll s h b <;> rfl
  | cons x a ih =>
    simp only [List.cons_append, updateAll, bind]
    cases hx : update s h x with
    | error e => rfl
    | ok r =>
      obtain ⟨h1, m⟩ := r
      simp only [Except.bind, ih]
      cases updateAll s h1 a with
      | error e => rfl
      | ok q =>
        simp only [Except.bind]
        cases updateAll s q.1 b with
        | error e => rfl
        | ok q => rfl

end Nbdl.Dom
