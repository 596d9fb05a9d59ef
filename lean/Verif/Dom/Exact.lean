import Verif.Dom.Props
/-!
# What is rendered, for any specification (C47)

`render_correct_partial` is about specifications of a certain shape.  Here the specification is any: what is
rendered into an element is given directly, on the specification as it was written, without nodes and without
the flat list.  It differs from what the specification stands for (`Spec.trees`) in these points: a loop or a
piece of HTML takes away what is there already; all branches of a match are put one after the other into an
element that is not shown, and of each the last child is kept.
-/
namespace Nbdl.Dom

namespace Spec

/-- An element, as far as it can be changed. -/
structure El where
  attrs : Text → Option Text
  classes : Text → Bool
  children : List Tree

def El.empty : El := ⟨fun _ => none, fun _ => false, []⟩
def El.add (e : El) (t : Tree) : El := { e with children := e.children ++ [t] }
def El.setAttr (e : El) (n : Text) (v : Option Text) : El :=
  { e with attrs := fun m => if m = n then v else e.attrs m }
def El.setClass (e : El) (n : Text) (v : Bool) : El :=
  { e with classes := fun m => if m = n then v else e.classes m }

variable {S : Type}

/-- One after the other. -/
def drawItems (d : S → El → Except Fault El) : List S → El → Except Fault El
  | [], e => .ok e
  | s :: ss, e => (d s e).bind (drawItems d ss)

/-- The kept child of a branch is shown: none is needed if no branch was chosen; there has to be one. -/
def choose (e : El) (kept : List (Option Tree)) : Option Nat → Except Fault El
  | none => .ok e
  | some i =>
    match kept[i]? with
    | none => .error .ub
    | some none => .error .exception
    | some (some t) => .ok (e.add t)

mutual
/-- What an item does to the element it is in. -/
def draw : Item S → S → El → Except Fault El
  | .elem tag items, s, e => (drawAll items s .empty).map fun i =>
      e.add (.elem tag i.attrs i.classes i.children)
  | .text t, s, e => .ok { e with children := e.children ++ textNodes s t }
  | .attr n v, _, e => .ok (e.setAttr n (some v))
  | .attrDyn n f, s, e => .ok (e.setAttr n (some (f s)))
  | .attrIf n f, s, e =>
    .ok (match f s with
      | some true => e.setAttr n (some [])
      | some false => e.setAttr n none
      | none => e)
  | .classIf n f, s, e =>
    .ok (match f s with
      | some b => e.setClass n b
      | none => e)
  | .classWhen n f, s, e => .ok (e.setClass n (f s))
  | .branch f bs, s, e => (drawEach bs s .empty).bind fun kept => choose e kept (f s)
  | .forEach f body, s, e => drawItems (fun s' e => draw body s' e) ((f s).getD []) { e with children := [] }
  | .html v, _, e => .ok { e with children := [.raw v] }
  | .noop, _, e => .ok e
/-- The items of an element, in order. -/
def drawAll : List (Item S) → S → El → Except Fault El
  | [], _, e => .ok e
  | x :: xs, s, e => (draw x s e).bind fun e => drawAll xs s e
/-- The branches of a match in the element that is not shown, and the last child after each. -/
def drawEach : List (Item S) → S → El → Except Fault (List (Option Tree))
  | [], _, _ => .ok []
  | x :: xs, s, e => (draw x s e).bind fun e =>
      (drawEach xs s e).map fun kept => e.children.getLast? :: kept
end

end Spec
open Spec
variable {S : Type}

/-! ## The nodes behind it -/

mutual
/-- `Shows`, with nodes numbered downwards. -/
def Up (h : Dom) : Tree → Nat → Prop
  | .text v, i => i < h.next ∧ (h.node i).kind = .text v
  | .raw v, i => i < h.next ∧ (h.node i).kind = .raw v
  | .elem tag attrs classes ts, i => i < h.next ∧ (h.node i).kind = .elem tag ∧ (h.node i).attrs = attrs ∧
      (h.node i).classes = classes ∧ UpAll h i ts (h.node i).children
def UpAll (h : Dom) (lo : Nat) : List Tree → List Nat → Prop
  | [], is => is = []
  | t :: ts, is => ∃ i is', is = i :: is' ∧ lo < i ∧ Up h t i ∧ UpAll h lo ts is'
end

mutual
theorem up_shows {h : Dom} : ∀ (t : Tree) (i : Nat), Up h t i → Shows h t i
  | .text _, _, u => by rw [Up] at u; rw [Shows]; exact u.2
  | .raw _, _, u => by rw [Up] at u; rw [Shows]; exact u.2
  | .elem _ _ _ ts, _, u => by
    rw [Up] at u
    obtain ⟨-, a, b, c, d⟩ := u
    rw [Shows]
    exact ⟨a, b, c, upAll_shows ts _ d⟩
theorem upAll_shows {h : Dom} {lo : Nat} : ∀ (ts : List Tree) (is : List Nat), UpAll h lo ts is → ShowsAll h ts is
  | [], _, u => by rw [UpAll] at u; rw [ShowsAll]; exact u
  | t :: ts, _, u => by
    rw [UpAll] at u
    obtain ⟨i, is, rfl, -, a, b⟩ := u
    rw [ShowsAll]
    exact ⟨i, is, rfl, up_shows t i a, upAll_shows ts is b⟩
end

theorem up_lt {h : Dom} {t : Tree} {i : Nat} (u : Up h t i) : i < h.next := by
  cases t <;> (rw [Up] at u; exact u.1)

mutual
theorem up_frame {h h' : Dom} (hn : h.next ≤ h'.next) : ∀ (t : Tree) (i : Nat),
    (∀ j, i ≤ j → j < h.next → SameUp (h.node j) (h'.node j)) → Up h t i → Up h' t i
  | .text _, i, hs, u => by
    rw [Up] at u ⊢
    obtain ⟨a, -⟩ := hs i (Nat.le_refl _) u.1
    exact ⟨by omega, by rw [a, u.2]⟩
  | .raw _, i, hs, u => by
    rw [Up] at u ⊢
    obtain ⟨a, -⟩ := hs i (Nat.le_refl _) u.1
    exact ⟨by omega, by rw [a, u.2]⟩
  | .elem _ _ _ ts, i, hs, u => by
    rw [Up] at u ⊢
    obtain ⟨a, b, c, d⟩ := hs i (Nat.le_refl _) u.1
    obtain ⟨u1, u2, u3, u4, u5⟩ := u
    refine ⟨by omega, by rw [a, u2], by rw [b, u3], by rw [c, u4], ?_⟩
    rw [d]
    exact upAll_frame hn ts _ (fun j hj => hs j (by omega)) u5
theorem upAll_frame {h h' : Dom} {lo : Nat} (hn : h.next ≤ h'.next) : ∀ (ts : List Tree) (is : List Nat),
    (∀ j, lo < j → j < h.next → SameUp (h.node j) (h'.node j)) → UpAll h lo ts is → UpAll h' lo ts is
  | [], _, _, u => by rw [UpAll] at u ⊢; exact u
  | t :: ts, _, hs, u => by
    rw [UpAll] at u ⊢
    obtain ⟨i, is, rfl, hi, a, b⟩ := u
    exact ⟨i, is, rfl, hi, up_frame hn t i (fun j hj => hs j (by omega)) a, upAll_frame hn ts is hs b⟩
end

theorem upAll_mem {h : Dom} {lo : Nat} : ∀ (ts : List Tree) (is : List Nat), UpAll h lo ts is →
    ∀ c ∈ is, lo < c ∧ c < h.next
  | [], _, u, c, hc => by rw [UpAll] at u; subst u; cases hc
  | t :: ts, _, u, c, hc => by
    rw [UpAll] at u
    obtain ⟨i, is, rfl, hi, a, b⟩ := u
    rcases List.mem_cons.1 hc with rfl | hc
    · exact ⟨hi, up_lt a⟩
    · exact upAll_mem ts is b c hc

theorem upAll_snoc {h : Dom} {lo : Nat} {t : Tree} {c : Nat} (hc : lo < c) (hu : Up h t c) :
    ∀ (ts : List Tree) (is : List Nat), UpAll h lo ts is → UpAll h lo (ts ++ [t]) (is ++ [c])
  | [], _, u => by
    rw [UpAll] at u; subst u
    rw [List.nil_append, UpAll]
    exact ⟨c, [], rfl, hc, hu, by rw [UpAll]⟩
  | t' :: ts, _, u => by
    rw [UpAll] at u
    obtain ⟨i, is, rfl, hi, a, b⟩ := u
    rw [List.cons_append, UpAll]
    exact ⟨i, is ++ [c], rfl, hi, a, upAll_snoc hc hu ts is b⟩

/-- The last node is the last tree. -/
theorem upAll_last {h : Dom} {lo : Nat} : ∀ (ts : List Tree) (is : List Nat), UpAll h lo ts is →
    (ts.getLast? = none ∧ is.getLast? = none) ∨
      ∃ t c, ts.getLast? = some t ∧ is.getLast? = some c ∧ c ∈ is ∧ Up h t c
  | [], _, u => by rw [UpAll] at u; subst u; exact .inl ⟨rfl, rfl⟩
  | t :: ts, _, u => by
    rw [UpAll] at u
    obtain ⟨i, is, rfl, hi, a, b⟩ := u
    right
    cases ts with
    | nil => rw [UpAll] at b; subst b; exact ⟨t, i, rfl, rfl, by simp, a⟩
    | cons t2 ts =>
      have b' := b
      rw [UpAll] at b'
      obtain ⟨i2, is2, rfl, -⟩ := b'
      rcases upAll_last (t2 :: ts) _ b with ⟨e, -⟩ | ⟨t', c, h1, h2, h3, h4⟩
      · simp at e
      · exact ⟨t', c, by rw [List.getLast?_cons_cons]; exact h1, by rw [List.getLast?_cons_cons]; exact h2,
          List.mem_cons_of_mem _ h3, h4⟩

/-- The element `p` of the document is `e`. -/
structure At (h : Dom) (p : Nat) (e : El) : Prop where
  lt : p < h.next
  attrs : (h.node p).attrs = e.attrs
  classes : (h.node p).classes = e.classes
  kids : UpAll h p e.children (h.node p).children
  par : ∀ c ∈ (h.node p).children, (h.node c).parent = some p

/-- Nothing but the element and its children was changed. -/
structure Keeps (h h' : Dom) (p : Nat) : Prop where
  next : h.next ≤ h'.next
  same : ∀ i, i < h.next → i ≠ p → SameUp (h.node i) (h'.node i)
  par : ∀ i, i < h.next → i ∉ (h.node p).children → (h'.node i).parent = (h.node i).parent
  kid : ∀ i, i < h.next → i ∈ (h.node p).children →
    (h'.node i).parent = (h.node i).parent ∨ (h'.node i).parent = none
  kind : (h'.node p).kind = (h.node p).kind
  new : ∀ c ∈ (h'.node p).children, c ∈ (h.node p).children ∨ h.next ≤ c

theorem SameUp.trans {a b c : Node} (x : SameUp a b) (y : SameUp b c) : SameUp a c :=
  ⟨by rw [y.1, x.1], by rw [y.2.1, x.2.1], by rw [y.2.2.1, x.2.2.1], by rw [y.2.2.2, x.2.2.2]⟩

theorem Keeps.refl (h : Dom) (p : Nat) : Keeps h h p :=
  ⟨Nat.le_refl _, fun _ _ _ => .of_eq rfl, fun _ _ _ => rfl, fun _ _ _ => .inl rfl, rfl, fun _ hc => .inl hc⟩

theorem Keeps.trans {h h1 h2 : Dom} {p : Nat} (a : Keeps h h1 p) (b : Keeps h1 h2 p) : Keeps h h2 p where
  next := Nat.le_trans a.next b.next
  same i hi hp := (a.same i hi hp).trans (b.same i (Nat.lt_of_lt_of_le hi a.next) hp)
  par i hi hc := by
    have hi1 := Nat.lt_of_lt_of_le hi a.next
    rw [b.par i hi1 (fun h => ?_), a.par i hi hc]
    rcases a.new i h with h | h
    · exact hc h
    · omega
  kid i hi hc := by
    have hi1 := Nat.lt_of_lt_of_le hi a.next
    by_cases h : i ∈ (h1.node p).children
    · rcases b.kid i hi1 h with e | e
      · rw [e]; exact a.kid i hi hc
      · exact .inr e
    · rw [b.par i hi1 h]; exact a.kid i hi hc
  kind := by rw [b.kind, a.kind]
  new c hc := by
    have := a.next
    rcases b.new c hc with h | h
    · exact a.new c h
    · right; omega

/-- Nothing but the attributes of the element changed. -/
theorem at_touch {h h' : Dom} {p : Nat} {e e' : El} (ha : At h p e) (hn : h'.next = h.next)
    (ho : ∀ i, i ≠ p → h'.node i = h.node i) (hk : (h'.node p).kind = (h.node p).kind)
    (hc : (h'.node p).children = (h.node p).children) (hp : (h'.node p).parent = (h.node p).parent)
    (h1 : (h'.node p).attrs = e'.attrs) (h2 : (h'.node p).classes = e'.classes)
    (h3 : e'.children = e.children) : At h' p e' ∧ Keeps h h' p := by
  have hpar : ∀ i, (h'.node i).parent = (h.node i).parent := fun i => by
    by_cases e : i = p
    · subst e; exact hp
    · rw [ho i e]
  refine ⟨⟨by rw [hn]; exact ha.lt, h1, h2, ?_, fun c h => ?_⟩,
    ⟨by omega, fun i _ hi => .of_eq (ho i hi), fun i _ _ => hpar i, fun i _ _ => .inl (hpar i), hk,
      fun c h => .inl (hc ▸ h)⟩⟩
  · rw [hc, h3]
    exact upAll_frame (by omega) _ _ (fun j hj _ => .of_eq (ho j (by omega))) ha.kids
  · rw [hpar c]; exact ha.par c (hc ▸ h)

/-- A node was added to the element. -/
theorem at_add {h h' : Dom} {p c : Nat} {e : El} {t : Tree} (ha : At h p e) (hn : h.next ≤ h'.next)
    (hs : ∀ i, i < h.next → i ≠ p → SameUp (h.node i) (h'.node i))
    (hpar : ∀ i, i < h.next → (h'.node i).parent = (h.node i).parent)
    (hk : (h'.node p).kind = (h.node p).kind) (h1 : (h'.node p).attrs = (h.node p).attrs)
    (h2 : (h'.node p).classes = (h.node p).classes)
    (hc : (h'.node p).children = (h.node p).children ++ [c]) (hcn : h.next ≤ c)
    (hcp : (h'.node c).parent = some p) (hu : Up h' t c) : At h' p (e.add t) ∧ Keeps h h' p := by
  have hlt := ha.lt
  refine ⟨⟨by omega, by rw [h1]; exact ha.attrs, by rw [h2]; exact ha.classes, ?_, fun d hd => ?_⟩,
    ⟨hn, hs, fun i hi _ => hpar i hi, fun i hi _ => .inl (hpar i hi), hk, fun d hd => ?_⟩⟩
  · rw [hc]
    exact upAll_snoc (by omega) hu _ _ (upAll_frame hn _ _ (fun j hj hl => hs j hl (by omega)) ha.kids)
  · rw [hc] at hd
    rcases List.mem_append.1 hd with hd | hd
    · rw [hpar d (upAll_mem _ _ ha.kids d hd).2]; exact ha.par d hd
    · simp at hd; subst hd; exact hcp
  · rw [hc] at hd
    rcases List.mem_append.1 hd with hd | hd
    · exact .inl hd
    · simp at hd; right; omega

theorem at_clear {h : Dom} {p : Nat} {e : El} (ha : At h p e) :
    At (h.clear p) p { e with children := [] } ∧ Keeps h (h.clear p) p := by
  have hp : p ∉ (h.node p).children := fun hc => by have := upAll_mem _ _ ha.kids p hc; omega
  have e1 : (h.clear p).node p = { h.node p with children := [] } := by simp [Dom.clear, hp]
  have e2 : ∀ i, i ≠ p → i ∉ (h.node p).children → (h.clear p).node i = h.node i := fun i h1 h2 => by
    simp [Dom.clear, h1, h2]
  have e3 : ∀ i, i ≠ p → i ∈ (h.node p).children → (h.clear p).node i = { h.node i with parent := none } :=
    fun i h1 h2 => by simp [Dom.clear, h1, h2]
  refine ⟨⟨ha.lt, by rw [e1]; exact ha.attrs, by rw [e1]; exact ha.classes, by rw [e1, UpAll],
    fun c hc => by rw [e1] at hc; cases hc⟩, ⟨Nat.le_refl _, fun i _ hi => ?_, fun i _ hi => ?_, fun i _ hi => ?_,
      by rw [e1], fun c hc => by rw [e1] at hc; cases hc⟩⟩
  · by_cases hc : i ∈ (h.node p).children
    · rw [e3 i hi hc]; exact ⟨rfl, rfl, rfl, rfl⟩
    · rw [e2 i hi hc]; exact .of_eq rfl
  · by_cases hc : i = p
    · subst hc; rw [e1]
    · rw [e2 i hc hi]
  · right; rw [e3 i (fun e => hp (e ▸ hi)) hi]

/-- A new node. -/
theorem at_create {h : Dom} {p : Nat} {e : El} {t : Tree} {k : Kind} (ha : At h p e)
    (hu : Up ((h.create k).append p h.next) t h.next) :
    At ((h.create k).append p h.next) p (e.add t) ∧ Keeps h ((h.create k).append p h.next) p := by
  obtain ⟨h1, h2, h3, h4⟩ := create_append h k p ha.lt
  refine at_add ha (by omega) (fun i a b => .of_eq (h2 i a b)) (fun i a => ?_) (by rw [h3]) (by rw [h3])
    (by rw [h3]) (by rw [h3]) (Nat.le_refl _) (by rw [h4]) hu
  by_cases hi : i = p
  · subst hi; rw [h3]
  · rw [h2 i a hi]

/-- A node kept by a branch. -/
def KeptOne (h : Dom) (n : Nat) : Option Nat → Option Tree → Prop
  | none, none => True
  | some c, some t => n < c ∧ Up h t c ∧ ((h.node c).parent = some n ∨ (h.node c).parent = none)
  | _, _ => False

def Kept (h : Dom) (n : Nat) : List (Option Nat) → List (Option Tree) → Prop
  | [], [] => True
  | c :: cs, t :: ts => KeptOne h n c t ∧ Kept h n cs ts
  | _, _ => False

theorem keptOne_keeps {h h' : Dom} {n : Nat} (k : Keeps h h' n) : ∀ {c t}, KeptOne h n c t → KeptOne h' n c t
  | none, none, _ => trivial
  | some c, some t, ⟨h1, h2, h3⟩ => by
    refine ⟨h1, up_frame k.next t c (fun j hj hl => k.same j hl (by omega)) h2, ?_⟩
    have hl := up_lt h2
    by_cases hc : c ∈ (h.node n).children
    · rcases k.kid c hl hc with e | e
      · rw [e]; exact h3
      · exact .inr e
    · rw [k.par c hl hc]; exact h3
  | none, some _, hk => hk.elim
  | some _, none, hk => hk.elim

theorem kept_get {h : Dom} {n : Nat} : ∀ {cs : List (Option Nat)} {ts : List (Option Tree)}, Kept h n cs ts →
    ∀ i : Nat, (cs[i]? = none ∧ ts[i]? = none) ∨ ∃ c t, cs[i]? = some c ∧ ts[i]? = some t ∧ KeptOne h n c t
  | [], [], _, i => .inl (by simp)
  | c :: cs, t :: ts, hk, 0 => .inr ⟨c, t, rfl, rfl, hk.1⟩
  | c :: cs, t :: ts, hk, i + 1 => by simpa using kept_get hk.2 i
  | [], _ :: _, hk, _ => hk.elim
  | _ :: _, [], hk, _ => hk.elim

/-- The kept node is moved into the element. -/
theorem at_move {h h1 : Dom} {p n c : Nat} {e : El} {t : Tree} (ha : At h p e) (hn : h.next ≤ h1.next)
    (hs : ∀ i, i < h.next → h1.node i = h.node i ∨ (SameUp (h.node i) (h1.node i) ∧
      (h1.node i).parent = (h.node i).parent))
    (hpn : h.next ≤ n) (hk : KeptOne h1 n (some c) (some t)) :
    At (h1.append p c) p (e.add t) ∧ Keeps h (h1.append p c) p := by
  obtain ⟨hnc, hu, hpar⟩ := hk
  have hlt := ha.lt
  have hs' : ∀ i, i < h.next → SameUp (h.node i) (h1.node i) ∧ (h1.node i).parent = (h.node i).parent := by
    intro i hi
    rcases hs i hi with e | e
    · rw [e]; exact ⟨.of_eq rfl, rfl⟩
    · exact e
  have f1 : ∀ i, i ≠ p → i ≠ c → i ≠ n → (h1.append p c).node i = h1.node i := by
    intro i a1 a2 a3
    rcases hpar with e | e <;> simp [Dom.append, Dom.detach, e, a1, a2, a3]
  have f2 : (h1.append p c).node p = { h1.node p with children := (h1.node p).children ++ [c] } := by
    have a1 : p ≠ c := by omega
    have a2 : p ≠ n := by omega
    rcases hpar with e | e <;> simp [Dom.append, Dom.detach, e, a1, a2]
  have f3 : SameUp (h1.node c) ((h1.append p c).node c) ∧ ((h1.append p c).node c).parent = some p := by
    have a1 : c ≠ p := by omega
    have a2 : c ≠ n := by omega
    rcases hpar with e | e <;> simp [Dom.append, Dom.detach, e, a1, a2, SameUp]
  have hnx : (h1.append p c).next = h1.next := next_append ..
  refine at_add ha (by rw [hnx]; exact hn) (fun i hi hp => ?_) (fun i hi => ?_) ?_ ?_ ?_ ?_ (by omega) f3.2
    (up_frame (by rw [hnx]; exact Nat.le_refl _) t c (fun j hj hl => ?_) hu)
  · rw [f1 i hp (by omega) (by omega)]; exact (hs' i hi).1
  · by_cases hp : i = p
    · subst hp; rw [f2]; exact (hs' i hi).2
    · rw [f1 i hp (by omega) (by omega)]; exact (hs' i hi).2
  · rw [f2]; exact (hs' p hlt).1.1
  · rw [f2]; exact (hs' p hlt).1.2.1
  · rw [f2]; exact (hs' p hlt).1.2.2.1
  · rw [f2]; show _ ++ _ = _; rw [(hs' p hlt).1.2.2.2]
  · by_cases hj' : j = c
    · subst hj'; exact f3.1
    · rw [f1 j (by omega) hj' (by omega)]; exact .of_eq rfl

/-! ## The flat list does it -/

/-- The result of a pipe that starts and ends in the element `p`. -/
def Does (h : Dom) (p : Nat) (r : Except Fault (Dom × Option Nat × List (Inst S))) : Except Fault El → Prop
  | .error f => r = .error f
  | .ok e => ∃ h' ms, r = .ok (h', some p, ms) ∧ At h' p e ∧ Keeps h h' p

theorem does_append {s : S} {h : Dom} {p : Nat} {xs ys : List (Instr S)} {d : Except Fault El}
    {g : El → Except Fault El} (h1 : Does h p (runAll s h (some p) xs) d)
    (h2 : ∀ h' e', At h' p e' → Does h' p (runAll s h' (some p) ys) (g e')) :
    Does h p (runAll s h (some p) (xs ++ ys)) (d.bind g) := by
  rw [runAll_append]
  cases d with
  | error f => rw [show runAll s h (some p) xs = .error f from h1]; rfl
  | ok e =>
    obtain ⟨h', ms, e1, a1, k1⟩ := h1
    rw [e1]
    have := h2 h' e a1
    simp only [Except.bind]
    cases hg : g e with
    | error f =>
      rw [hg] at this
      rw [show runAll s h' (some p) ys = .error f from this]
      rfl
    | ok e' =>
      rw [hg] at this
      obtain ⟨h'', ms', e2, a2, k2⟩ := this
      rw [e2]
      exact ⟨h'', _, rfl, a2, k1.trans k2⟩

/-- One action that stays in the element. -/
theorem does_one {s : S} {h h' : Dom} {p : Nat} {x : Instr S} {m : Inst S} {e : El}
    (hr : run s h p x = .ok (h', some p, m)) (ha : At h' p e ∧ Keeps h h' p) :
    Does h p (runAll s h (some p) [x]) (.ok e) := by
  rw [runAll_single, hr]
  exact ⟨h', _, rfl, ha.1, ha.2⟩

mutual
theorem draw_text : ∀ (t : TextSpec S) (s : S) (h : Dom) (p : Nat) (e : El), At h p e →
    Does h p (runAll s h (some p) (flattenText t)) (.ok { e with children := e.children ++ textNodes s t })
  | .const v, s, h, p, e, ha => by
    rw [flattenText, textNodes]
    refine does_one (by rw [run]) (at_create ha ?_)
    obtain ⟨h1, -, -, h4⟩ := create_append h (.text v) p ha.lt
    rw [Up, h4]
    exact ⟨by omega, rfl⟩
  | .path f, s, h, p, e, ha => by
    rw [flattenText, textNodes]
    refine does_one (by rw [run]) ?_
    obtain ⟨h1, h2, h3, h4⟩ := create_append h (.text []) p ha.lt
    have hlt := ha.lt
    rw [updateText]
    cases f s with
    | none => exact at_create ha (by rw [Up, h4]; exact ⟨by omega, rfl⟩)
    | some v =>
      have o : ∀ i, i ≠ h.next → ((((h.create (.text [])).append p h.next).setKind h.next (.text v)).node i)
          = ((h.create (.text [])).append p h.next).node i := fun i hi => by simp [Dom.setKind, hi]
      have n : (((h.create (.text [])).append p h.next).setKind h.next (.text v)).node h.next
          = { ((h.create (.text [])).append p h.next).node h.next with kind := .text v } := by simp [Dom.setKind]
      have op := o p (by omega)
      refine at_add ha (c := h.next) (show h.next ≤ ((h.create (.text [])).append p h.next).next by omega)
        (fun i a b => by rw [o i (by omega)]; exact .of_eq (h2 i a b)) (fun i a => ?_)
        (by rw [op, h3]) (by rw [op, h3]) (by rw [op, h3]) (by rw [op, h3]) (Nat.le_refl _) (by rw [n, h4]) ?_
      · rw [o i (by omega)]
        by_cases hi : i = p
        · subst hi; rw [h3]
        · rw [h2 i a hi]
      · rw [Up, n]
        exact ⟨show h.next < ((h.create (.text [])).append p h.next).next by omega, rfl⟩
  | .concat ts, s, h, p, e, ha => by
    rw [flattenText, textNodes]
    exact draw_texts ts s h p e ha
theorem draw_texts : ∀ (ts : List (TextSpec S)) (s : S) (h : Dom) (p : Nat) (e : El), At h p e →
    Does h p (runAll s h (some p) (flattenTexts ts)) (.ok { e with children := e.children ++ textsNodes s ts })
  | [], s, h, p, e, ha => by
    rw [flattenTexts, textsNodes, List.append_nil]
    exact ⟨h, [], rfl, ha, .refl ..⟩
  | t :: ts, s, h, p, e, ha => by
    rw [flattenTexts, textsNodes]
    have := does_append (draw_text t s h p e ha) fun h' e' ha' => draw_texts ts s h' p e' ha'
    simpa [Except.bind, List.append_assoc] using this
end

/-- The elements of a loop. -/
theorem draw_items {p : Nat} {body : List (Instr S)} {d : S → El → Except Fault El}
    (hd : ∀ s h e, At h p e → Does h p (runAll s h (some p) body) (d s e)) : ∀ (ss : List S) (h : Dom) (e : El),
    At h p e →
    match drawItems d ss e with
    | .error f => renderItems (fun s h => (runAll s h (some p) body).map (·.1)) ss h = .error f
    | .ok e' => ∃ h', renderItems (fun s h => (runAll s h (some p) body).map (·.1)) ss h = .ok h' ∧ At h' p e'
        ∧ Keeps h h' p
  | [], h, e, ha => by rw [drawItems]; exact ⟨h, rfl, ha, .refl ..⟩
  | s :: ss, h, e, ha => by
    have h1 := hd s h e ha
    rw [drawItems]
    cases hg : d s e with
    | error f =>
      rw [hg] at h1
      simp only [renderItems, show runAll s h (some p) body = .error f from h1, Except.bind]
      rfl
    | ok e1 =>
      rw [hg] at h1
      obtain ⟨h', ms, e1', a1, k1⟩ := h1
      have h2 := draw_items hd ss h' e1 a1
      have er : renderItems (fun s h => (runAll s h (some p) body).map (·.1)) (s :: ss) h
          = renderItems (fun s h => (runAll s h (some p) body).map (·.1)) ss h' := by
        simp only [renderItems, e1']
        rfl
      rw [er]
      simp only [Except.bind]
      cases hg2 : drawItems d ss e1 with
      | error f => rw [hg2] at h2; exact h2
      | ok e2 =>
        rw [hg2] at h2
        obtain ⟨h'', e3, a3, k3⟩ := h2
        exact ⟨h'', e3, a3, k1.trans k3⟩

theorem at_setAttr {h : Dom} {p : Nat} {e : El} (ha : At h p e) (n : Text) (v : Option Text) :
    At (h.setAttr p n v) p (e.setAttr n v) ∧ Keeps h (h.setAttr p n v) p := by
  refine at_touch ha rfl (fun i hi => by simp [Dom.setAttr, hi]) ?_ ?_ ?_ ?_ ?_ rfl
  all_goals simp [Dom.setAttr, El.setAttr, ha.attrs, ha.classes]

theorem at_setClass {h : Dom} {p : Nat} {e : El} (ha : At h p e) (n : Text) (v : Bool) :
    At (h.setClass p n v) p (e.setClass n v) ∧ Keeps h (h.setClass p n v) p := by
  refine at_touch ha rfl (fun i hi => by simp [Dom.setClass, hi]) ?_ ?_ ?_ ?_ ?_ rfl
  all_goals simp [Dom.setClass, El.setClass, ha.attrs, ha.classes]

mutual
theorem draw_item : ∀ (x : Item S) (s : S) (h : Dom) (p : Nat) (e : El), At h p e →
    Does h p (runAll s h (some p) (flatten x)) (draw x s e)
  | .elem tag items, s, h, p, e, ha => by
    obtain ⟨h1, h2, h3, h4⟩ := create_append h (.elem tag) p ha.lt
    have hlt := ha.lt
    generalize hh : (h.create (.elem tag)).append p h.next = h0 at h1 h2 h3 h4
    have a0 : At h0 h.next .empty := by
      refine ⟨by omega, by rw [h4]; rfl, by rw [h4]; rfl, by rw [h4, El.empty, UpAll], fun c hc => ?_⟩
      rw [h4] at hc; cases hc
    have r := draw_all items s h0 h.next .empty a0
    rw [flatten, draw]
    have er : runAll s h (some p) (.beginEl tag :: (flattenAll items ++ [.endEl])) =
        (runAll s h0 (some h.next) (flattenAll items ++ [.endEl])).map fun q =>
          (q.1, q.2.1, Inst.static :: q.2.2) := by
      simp only [runAll, run, bind, Except.bind, hh]
      cases runAll s h0 (some h.next) (flattenAll items ++ [.endEl]) <;> rfl
    rw [er, runAll_append]
    cases hd : drawAll items s .empty with
    | error f =>
      rw [hd] at r
      rw [show runAll s h0 (some h.next) (flattenAll items) = .error f from r]
      rfl
    | ok i =>
      rw [hd] at r
      obtain ⟨h', ms, e1, a1, k1⟩ := r
      rw [e1]
      have hpar : (h'.node h.next).parent = some p := by
        rw [k1.par h.next (by omega) (by rw [h4]; simp), h4]
      have hpp : ∀ j, j < h.next → (h'.node j).parent = (h0.node j).parent := fun j hj =>
        k1.par j (by omega) (by rw [h4]; simp)
      have hsp := k1.same p (by omega) (by omega)
      simp only [Except.bind, runAll, run, bind, hpar, Except.map]
      have fin := at_add (h' := h') (c := h.next) (t := .elem tag i.attrs i.classes i.children) ha
        (by have := k1.next; omega)
        (fun j hj hne => by
          have := k1.same j (by omega) (by omega)
          rwa [h2 j hj hne] at this)
        (fun j hj => by
          rw [hpp j hj]
          by_cases e : j = p
          · subst e; rw [h3]
          · rw [h2 j hj e])
        (by rw [hsp.1, h3]) (by rw [hsp.2.1, h3]) (by rw [hsp.2.2.1, h3]) (by rw [hsp.2.2.2, h3])
        (Nat.le_refl _) hpar
        (by rw [Up]; exact ⟨a1.lt, by rw [k1.kind, h4], a1.attrs, a1.classes, a1.kids⟩)
      exact ⟨h', _, rfl, fin.1, fin.2⟩
  | .text t, s, h, p, e, ha => by rw [flatten, draw]; exact draw_text t s h p e ha
  | .attr n v, s, h, p, e, ha => by
    rw [flatten, draw]
    exact does_one (by rw [run]) (at_setAttr ha n _)
  | .attrDyn n f, s, h, p, e, ha => by
    rw [flatten, draw]
    exact does_one (by rw [run]) (at_setAttr ha n _)
  | .attrIf n f, s, h, p, e, ha => by
    rw [flatten, draw]
    refine does_one (by rw [run]) ?_
    rw [updateAttrIf]
    rcases f s with _ | _ | _
    · exact ⟨ha, .refl ..⟩
    · exact at_setAttr ha n _
    · exact at_setAttr ha n _
  | .classIf n f, s, h, p, e, ha => by
    rw [flatten, draw]
    refine does_one (by rw [run]) ?_
    rw [updateClassIf]
    cases f s with
    | none => exact ⟨ha, .refl ..⟩
    | some b => exact at_setClass ha n b
  | .classWhen n f, s, h, p, e, ha => by
    rw [flatten, draw]
    exact does_one (by rw [run]) (at_setClass ha n _)
  | .branch f bs, s, h, p, e, ha => by
    have hlt := ha.lt
    rw [flatten, draw, runAll_single, run]
    have a0 : At (h.create (.elem "span".toList)) h.next .empty := by
      refine ⟨by simp, by simp [El.empty], by simp [El.empty], ?_, fun c hc => ?_⟩
      · simp [El.empty, UpAll]
      · simp at hc
    have r := draw_each bs s (h.create (.elem "span".toList)) h.next .empty a0
    cases hd : drawEach bs s .empty with
    | error g =>
      rw [hd] at r
      simp only [bind, Except.bind, show runBranches s (h.create (.elem "span".toList)) h.next (flattenEach bs)
        = .error g from r]
      rfl
    | ok ts =>
      rw [hd] at r
      obtain ⟨h1, cs, mss, e1, hk, k1⟩ := r
      have hn1 : h.next < h1.next := by
        have := k1.next
        simp at this; omega
      have hs : ∀ i, i < h.next → h1.node i = h.node i ∨ (SameUp (h.node i) (h1.node i) ∧
          (h1.node i).parent = (h.node i).parent) := by
        intro i hi
        have hne : i ≠ h.next := by omega
        have a := k1.same i (by simp; omega) hne
        have b := k1.par i (by simp; omega) (by simp)
        simp only [node_create, if_neg hne] at a b
        exact .inr ⟨a, b⟩
      simp only [bind, Except.bind, e1, updateBranch]
      cases hf : f s with
      | none =>
        have fin : At h1 p e ∧ Keeps h h1 p := by
          have hs' : ∀ i, i < h.next → SameUp (h.node i) (h1.node i) ∧ (h1.node i).parent = (h.node i).parent := by
            intro i hi
            rcases hs i hi with e | e
            · rw [e]; exact ⟨.of_eq rfl, rfl⟩
            · exact e
          have hp := hs' p hlt
          refine ⟨⟨by omega, by rw [hp.1.2.1]; exact ha.attrs, by rw [hp.1.2.2.1]; exact ha.classes, ?_, fun c hc => ?_⟩,
            ⟨by omega, fun i hi _ => (hs' i hi).1, fun i hi _ => (hs' i hi).2, fun i hi _ => .inl (hs' i hi).2,
              hp.1.1, fun c hc => .inl (by rw [hp.1.2.2.2] at hc; exact hc)⟩⟩
          · rw [hp.1.2.2.2]
            exact upAll_frame (by omega) _ _ (fun j hj hl => (hs' j hl).1) ha.kids
          · rw [hp.1.2.2.2] at hc
            rw [(hs' c (upAll_mem _ _ ha.kids c hc).2).2]
            exact ha.par c hc
        exact ⟨h1, _, rfl, fin.1, fin.2⟩
      | some i =>
        rw [choose]
        rcases kept_get hk i with ⟨c1, c2⟩ | ⟨c, t, c1, c2, c3⟩
        · simp only [c1, c2]; rfl
        · simp only [c1, c2]
          cases c with
          | none =>
            cases t with
            | none => rfl
            | some t => exact c3.elim
          | some c =>
            cases t with
            | none => exact c3.elim
            | some t =>
              have fin := at_move ha (by omega) hs (Nat.le_refl _) c3
              exact ⟨_, _, rfl, fin.1, fin.2⟩
  | .forEach f body, s, h, p, e, ha => by
    rw [flatten, draw, runAll_single, run]
    obtain ⟨a0, k0⟩ := at_clear ha
    have r := draw_items (fun s h e ha => draw_item body s h p e ha) ((f s).getD []) _ _ a0
    cases hd : drawItems (fun s' e => draw body s' e) ((f s).getD []) { e with children := [] } with
    | error g =>
      rw [hd] at r
      simp only [bind, Except.bind, r]
      rfl
    | ok e' =>
      rw [hd] at r
      obtain ⟨h', e1, a1, k1⟩ := r
      simp only [bind, Except.bind, e1]
      exact ⟨h', _, rfl, a1, k0.trans k1⟩
  | .html v, s, h, p, e, ha => by
    rw [flatten, draw]
    obtain ⟨a0, k0⟩ := at_clear ha
    obtain ⟨h1, -, -, h4⟩ := create_append (h.clear p) (.raw v) p a0.lt
    have fin := at_create (k := .raw v) (t := .raw v) a0 (by
      rw [Up, h4]; exact ⟨by omega, rfl⟩)
    refine does_one (h' := ((h.clear p).create (.raw v)).append p h.next) (by rw [run]) ⟨fin.1, k0.trans fin.2⟩
  | .noop, s, h, p, e, ha => by
    rw [flatten, draw]
    exact ⟨h, [], rfl, ha, .refl ..⟩
theorem draw_all : ∀ (xs : List (Item S)) (s : S) (h : Dom) (p : Nat) (e : El), At h p e →
    Does h p (runAll s h (some p) (flattenAll xs)) (drawAll xs s e)
  | [], s, h, p, e, ha => by
    rw [flattenAll, drawAll]
    exact ⟨h, [], rfl, ha, .refl ..⟩
  | x :: xs, s, h, p, e, ha => by
    rw [flattenAll, drawAll]
    exact does_append (draw_item x s h p e ha) fun h' e' ha' => draw_all xs s h' p e' ha'
theorem draw_each : ∀ (xs : List (Item S)) (s : S) (h : Dom) (n : Nat) (e : El), At h n e →
    match drawEach xs s e with
    | .error f => runBranches s h n (flattenEach xs) = .error f
    | .ok ts => ∃ h' cs mss, runBranches s h n (flattenEach xs) = .ok (h', cs, mss) ∧ Kept h' n cs ts ∧ Keeps h h' n
  | [], s, h, n, e, ha => by
    rw [flattenEach, drawEach]
    exact ⟨h, [], [], by rw [runBranches], trivial, .refl ..⟩
  | x :: xs, s, h, n, e, ha => by
    have r := draw_item x s h n e ha
    rw [flattenEach, drawEach, runBranches]
    cases hd : draw x s e with
    | error f =>
      rw [hd] at r
      simp only [bind, Except.bind, show runAll s h (some n) (flatten x) = .error f from r]
    | ok e1 =>
      rw [hd] at r
      obtain ⟨h1, ms, er, a1, k1⟩ := r
      have r2 := draw_each xs s h1 n e1 a1
      simp only [bind, Except.bind, er]
      cases hd2 : drawEach xs s e1 with
      | error f =>
        rw [hd2] at r2
        simp only [show runBranches s h1 n (flattenEach xs) = .error f from r2, Except.map]
      | ok ts =>
        rw [hd2] at r2
        obtain ⟨h2, cs, mss, e2, hk, k2⟩ := r2
        simp only [e2, Except.map]
        refine ⟨h2, _, _, rfl, ⟨keptOne_keeps k2 ?_, hk⟩, k1.trans k2⟩
        rcases upAll_last _ _ a1.kids with ⟨l1, l2⟩ | ⟨t, c, l1, l2, l3, l4⟩
        · rw [l1, l2]; trivial
        · rw [l1, l2]
          exact ⟨(upAll_mem _ _ a1.kids c l3).1, l4, .inl (a1.par c l3)⟩
end

/-! ## The property -/

mutual
theorem shows_unique {h : Dom} : ∀ (t t' : Tree) (i : Nat), Shows h t i → Shows h t' i → t = t'
  | .text _, .text _, _, a, b => by
    simp only [Shows] at a b; rw [a] at b; simp only [Kind.text.injEq] at b; rw [b]
  | .raw _, .raw _, _, a, b => by
    simp only [Shows] at a b; rw [a] at b; simp only [Kind.raw.injEq] at b; rw [b]
  | .elem _ _ _ ts, .elem _ _ _ ts', _, a, b => by
    rw [Shows] at a b
    obtain ⟨a1, a2, a3, a4⟩ := a
    obtain ⟨b1, b2, b3, b4⟩ := b
    rw [a1] at b1; simp only [Kind.elem.injEq] at b1
    rw [b1, ← a2, ← b2, ← a3, ← b3, showsAll_unique ts ts' _ a4 b4]
  | .text _, .raw _, _, a, b | .raw _, .text _, _, a, b => by simp only [Shows] at a b; rw [a] at b; cases b
  | .text _, .elem .., _, a, b | .raw _, .elem .., _, a, b | .elem .., .text _, _, a, b
  | .elem .., .raw _, _, a, b => by simp only [Shows] at a b; simp_all
theorem showsAll_unique {h : Dom} : ∀ (ts ts' : List Tree) (is : List Nat), ShowsAll h ts is →
    ShowsAll h ts' is → ts = ts'
  | [], [], _, _, _ => rfl
  | [], _ :: _, _, a, b => by
    simp only [ShowsAll] at a b; subst a; obtain ⟨_, _, e, _⟩ := b; cases e
  | _ :: _, [], _, a, b => by
    simp only [ShowsAll] at a b; subst b; obtain ⟨_, _, e, _⟩ := a; cases e
  | t :: ts, t' :: ts', _, a, b => by
    simp only [ShowsAll] at a b
    obtain ⟨i, is, rfl, a1, a2⟩ := a
    obtain ⟨j, js, e, b1, b2⟩ := b
    simp only [List.cons.injEq] at e
    obtain ⟨rfl, rfl⟩ := e
    rw [shows_unique t t' _ a1 b1, showsAll_unique ts ts' _ a2 b2]
end

/-- The element, when nothing is in it. -/
def bare (h : Dom) (p : Nat) : El := ⟨(h.node p).attrs, (h.node p).classes, []⟩

/-- C47, for every specification whatever, in every document: rendering into an element without children does
what `draw` says, or fails as `draw` says. -/
theorem render_exact (x : Item S) (s : S) (h : Dom) (p : Nat) (hp : p < h.next) (hc : (h.node p).children = []) :
    match draw x s (bare h p) with
    | .error f => render s h p x = .error f
    | .ok e => ∃ h' ms, render s h p x = .ok (h', ms) ∧ (h'.node p).attrs = e.attrs ∧
        (h'.node p).classes = e.classes ∧ (h'.node p).kind = (h.node p).kind ∧
        ShowsAll h' e.children (h'.node p).children := by
  have ha : At h p (bare h p) := ⟨hp, rfl, rfl, by rw [hc, bare, UpAll], fun c h => by rw [hc] at h; cases h⟩
  have r := draw_item x s h p _ ha
  rw [render]
  cases hd : draw x s (bare h p) with
  | error f => rw [hd] at r; rw [show runAll s h (some p) (flatten x) = .error f from r]; rfl
  | ok e =>
    rw [hd] at r
    obtain ⟨h', ms, e1, a, k⟩ := r
    rw [e1]
    exact ⟨h', ms, rfl, a.attrs, a.classes, k.kind, upAll_shows _ _ a.kids⟩

/-- Exactly when the nodes rendered are the ones the specification stands for. -/
theorem render_right_iff (x : Item S) (s : S) (h : Dom) (p : Nat) (hp : p < h.next)
    (hc : (h.node p).children = []) :
    (∃ h' ms, render s h p x = .ok (h', ms) ∧ ShowsAll h' (trees s x) (h'.node p).children) ↔
      ∃ e, draw x s (bare h p) = .ok e ∧ e.children = trees s x := by
  have r := render_exact x s h p hp hc
  cases hd : draw x s (bare h p) with
  | error f =>
    rw [hd] at r
    simp only at r
    simp [r]
  | ok e =>
    rw [hd] at r
    obtain ⟨h', ms, e1, -, -, -, sh⟩ := r
    constructor
    · rintro ⟨h2, ms2, e2, s2⟩
      rw [e1] at e2
      simp only [Except.ok.injEq, Prod.mk.injEq] at e2
      obtain ⟨rfl, rfl⟩ := e2
      exact ⟨e, rfl, showsAll_unique _ _ _ sh s2⟩
    · rintro ⟨e', he, ht⟩
      cases he
      exact ⟨h', ms, e1, by rw [← ht]; exact sh⟩

/-- What is in an element before a loop, or before a piece of HTML, is not shown, whatever it is; if there is no
element in the loop nothing is. -/
theorem loop_erases_violated (x : Item S) (f : S → Option (List S)) (body : Item S) (tag : Text) (s : S)
    (h : Dom) (p : Nat) (hp : p < h.next) (hc : (h.node p).children = []) (e : El) (hx : draw x s .empty = .ok e)
    (hf : f s = some []) : ∃ h' ms i, render s h p (.elem tag [x, .forEach f body]) = .ok (h', ms) ∧
      (h'.node p).children = [i] ∧ (h'.node i).kind = .elem tag ∧ (h'.node i).children = [] := by
  have r := render_exact (.elem tag [x, .forEach f body]) s h p hp hc
  have hd : draw (.elem tag [x, .forEach f body]) s (bare h p) =
      .ok ((bare h p).add (.elem tag e.attrs e.classes [])) := by
    simp [draw, drawAll, hx, hf, drawItems, Except.bind, Except.map]
  rw [hd] at r
  obtain ⟨h', ms, e1, -, -, -, sh⟩ := r
  simp only [El.add, bare, List.nil_append, ShowsAll, Shows] at sh
  obtain ⟨i, is, e2, sh, rfl⟩ := sh
  exact ⟨h', ms, i, e1, e2, sh.1, sh.2.2.2⟩

/-- The first branch is an item without nodes: if it is chosen, nothing can be rendered. -/
theorem branch_empty_violated (x : Item S) (bs : List (Item S)) (f : S → Option Nat) (s : S) (h : Dom) (p : Nat)
    (hp : p < h.next) (hc : (h.node p).children = []) (e : El) (hx : draw x s .empty = .ok e)
    (he : e.children = []) (kept : List (Option Tree)) (hb : drawEach bs s e = .ok kept) (hf : f s = some 0) :
    render s h p (.branch f (x :: bs)) = .error .exception := by
  have r := render_exact (.branch f (x :: bs)) s h p hp hc
  have hd : draw (.branch f (x :: bs)) s (bare h p) = .error .exception := by
    simp [draw, drawEach, hx, hb, he, hf, choose, Except.bind, Except.map]
  rw [hd] at r
  exact r

example : ∃ e, draw (.text (.const ['a'])) true .empty = .ok e := ⟨_, by rw [draw]⟩

example : ∃ e kept, draw (.attr ['k'] ['v'] : Item Bool) true .empty = .ok e ∧ e.children = [] ∧
    drawEach [.text (.const ['a'])] true e = .ok kept :=
  ⟨_, _, by rw [draw], rfl, by simp only [drawEach, draw, Except.bind, Except.map]; rfl⟩

/-- In the document of the examples, the branches of `branch_concat_violated`: only the last text is kept. -/
example : ∃ e, draw (.branch (fun _ => some 0) [.text (.concat [.const ['a'], .const ['b']])]) true (bare doc0 0)
    = .ok e ∧ e.children = [.text ['b']] :=
  ⟨_, by simp [draw, drawEach, textNodes, textsNodes, Except.bind, Except.map, choose, El.empty, bare]; rfl, rfl⟩

end Nbdl.Dom
