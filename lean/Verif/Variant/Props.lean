import Verif.Variant.Model
/-!
C41: equality and matching of variants.
-/
namespace Nbdl.Variant
variable {W : World}

theorem overload_any {R : Type} (f : (t : W.Ty) → W.Val t → R) (hs : List (Handler W R)) (t : W.Ty) :
    overload (any f :: hs) t = some (f t) := by
  rw [overload, List.findSome?_cons]; rfl

theorem visit_any {R : Type} {alts : List W.Ty} (f : (t : W.Ty) → W.Val t → R) (hs : List (Handler W R))
    (v : Var W alts) : visit (any f :: hs) v = some (f alts[v.idx] v.val) := by
  unfold visit
  rw [if_pos (by simp [overload_any])]
  rw [overload_any]; rfl

/-- C41: equality of variants is decided by the alternatives and their values, and always compiles.
(A function that takes a `T const&` can be called with a `T`, which it gets unchanged.) -/
theorem variant_equal (hconv : ∀ t, W.conv t t = some id) {alts : List W.Ty} (a b : Var W alts) :
    ∃ r, equal a b = some r ∧ (r = true ↔
      ∃ h : b.idx = a.idx, W.empty alts[a.idx] = true ∨ W.equal alts[a.idx] a.val (h ▸ b.val) = true) := by
  obtain ⟨i, x⟩ := a
  obtain ⟨k, y⟩ := b
  unfold equal typeId
  by_cases hik : i = k
  · subst hik
    rw [if_pos rfl, visit_any]
    simp only [Option.bind_some, id]
    have hall : (alts.all fun t => (overload [on alts[i] fun v2 =>
        if W.empty alts[i] then true else W.equal alts[i] x v2, any fun _ _ => false] t).isSome) = true := by
      rw [List.all_eq_true]
      intro t _
      unfold overload
      rw [List.findSome?_cons]
      split
      · rfl
      · rfl
    unfold visit
    simp only
    rw [if_pos hall]
    have ho : overload [on alts[i] fun v2 =>
        if W.empty alts[i] then true else W.equal alts[i] x v2, any fun _ _ => false] alts[i]
        = some fun v2 => if W.empty alts[i] then true else W.equal alts[i] x v2 := by
      simp [overload, on, hconv]
    rw [ho]
    refine ⟨_, rfl, ?_⟩
    simp only
    constructor
    · intro h
      refine ⟨trivial, ?_⟩
      split at h
      · rename_i he; exact .inl he
      · exact .inr h
    · rintro ⟨_, h⟩
      split
      · rfl
      · rename_i he
        exact Or.resolve_left h he
  · have : ¬ ((i.val : Int) = (k.val : Int)) := by
      intro h; exact hik (Fin.ext (by omega))
    rw [if_neg this]
    refine ⟨false, rfl, by simp, ?_⟩
    rintro ⟨h, -⟩
    exact absurd h.symm hik

/-- C41: with values compared by `==` that is equality, and at most one value of each empty type, variants
are equal iff they hold the same alternative with the same value. -/
theorem variant_equal_iff (hconv : ∀ t, W.conv t t = some id) (heq : ∀ t x y, W.equal t x y = true ↔ x = y)
    (hempty : ∀ t, W.empty t = true → ∀ x y : W.Val t, x = y) {alts : List W.Ty} (a b : Var W alts) :
    equal a b = some true ↔ a = b := by
  obtain ⟨r, h1, h2⟩ := variant_equal hconv a b
  rw [h1]
  constructor
  · intro h
    injection h with h
    obtain ⟨hi, h3⟩ := h2.1 h
    obtain ⟨i, x⟩ := a
    obtain ⟨k, y⟩ := b
    simp only at hi
    subst hi
    simp only at h3
    congr
    rcases h3 with h3 | h3
    · exact hempty _ h3 _ _
    · exact (heq _ _ _).1 h3
  · rintro rfl
    congr 1
    exact h2.2 ⟨rfl, .inr ((heq _ _ _).2 rfl)⟩

/-- C41: matching calls the first function that can be called with the held value, with that value. -/
theorem visit_first {R : Type} {alts : List W.Ty} (pre post : List (Handler W R)) (h : Handler W R)
    (v : Var W alts) (f : W.Val alts[v.idx] → R)
    (hc : ∀ t ∈ alts, ∃ h' ∈ pre ++ h :: post, (h' t).isSome)
    (hpre : ∀ h' ∈ pre, h' alts[v.idx] = none) (hh : h alts[v.idx] = some f) :
    visit (pre ++ h :: post) v = some (f v.val) := by
  have hall : (alts.all fun t => (overload (pre ++ h :: post) t).isSome) = true := by
    rw [List.all_eq_true]
    intro t ht
    obtain ⟨h', hm, hs⟩ := hc t ht
    unfold overload
    rw [List.findSome?_isSome_iff]
    exact ⟨h', hm, hs⟩
  unfold visit
  rw [if_pos hall]
  have : overload (pre ++ h :: post) alts[v.idx] = some f := by
    unfold overload
    rw [List.findSome?_append, List.findSome?_eq_none_iff.2 hpre, List.findSome?_cons, hh]; rfl
  rw [this]; rfl

/-- C41: a branch for the held type is called with the held value, whatever branches come after it, if no
branch before it can be called with a value of that type. -/
theorem visit_exact (hconv : ∀ t, W.conv t t = some id) {R : Type} {alts : List W.Ty}
    (pre post : List (Handler W R)) (v : Var W alts) (f : W.Val alts[v.idx] → R)
    (hc : ∀ t ∈ alts, ∃ h' ∈ pre ++ on alts[v.idx] f :: post, (h' t).isSome)
    (hpre : ∀ h' ∈ pre, h' alts[v.idx] = none) :
    visit (pre ++ on alts[v.idx] f :: post) v = some (f v.val) :=
  visit_first pre post _ v f hc hpre (by simp [on, hconv])

/-- C41: without a function for every alternative matching does not compile. -/
theorem visit_total {R : Type} {alts : List W.Ty} (hs : List (Handler W R)) (v : Var W alts) (t : W.Ty)
    (ht : t ∈ alts) (h : ∀ h' ∈ hs, h' t = none) : visit hs v = none := by
  unfold visit
  rw [if_neg]
  intro hall
  rw [List.all_eq_true] at hall
  have := hall t ht
  rw [overload, List.findSome?_eq_none_iff.2 h] at this
  cases this

inductive ExTy where
  | unresolved | int | double
  deriving DecidableEq

@[reducible] def ExVal : ExTy → Type
  | .unresolved => Unit
  | .int => Nat
  | .double => Nat

def exEqual : (t : ExTy) → ExVal t → ExVal t → Bool
  | .unresolved, _, _ => true
  | .int, x, y => Nat.beq x y
  | .double, x, y => Nat.beq x y

def exConv : (src dst : ExTy) → Option (ExVal src → ExVal dst)
  | .unresolved, .unresolved => some id
  | .int, .int => some id
  | .double, .double => some id
  | .int, .double => some fun x => x
  | .double, .int => some fun x => x
  | .unresolved, .int => none
  | .unresolved, .double => none
  | .int, .unresolved => none
  | .double, .unresolved => none

/-- `unresolved`, `int` and `double`, of which the last two convert to one another. -/
@[reducible] def exW : World where
  Ty := ExTy
  Val := ExVal
  empty := fun t => t = .unresolved
  equal := exEqual
  conv := exConv

@[reducible] def exAlts : List exW.Ty := [ExTy.unresolved, ExTy.int, ExTy.double]
/-- an `int`, 7 -/
def exV : Var exW exAlts := ⟨⟨1, by decide⟩, (7 : Nat)⟩
def exV' : Var exW exAlts := ⟨⟨2, by decide⟩, (7 : Nat)⟩

/-- The hypotheses of the theorems about equality are met. -/
example : (∀ t, exW.conv t t = some id) ∧ (∀ t x y, exW.equal t x y = true ↔ x = y)
    ∧ (∀ t, exW.empty t = true → ∀ x y : exW.Val t, x = y) := by
  refine ⟨?_, ?_, ?_⟩
  · intro t; cases t <;> rfl
  · intro t
    cases t
    · intro x y; exact ⟨fun _ => rfl, fun _ => rfl⟩
    · intro x y; exact iff_of_eq Nat.beq_eq
    · intro x y; exact iff_of_eq Nat.beq_eq
  · intro t h
    cases t
    · intro x y; rfl
    · cases h
    · cases h
example : equal exV exV = some true ∧ equal exV exV' = some false := by decide

/-- Branches for `unresolved`, `int` and `double`. -/
def exHs : List (Handler exW (ExTy × Nat)) :=
  [on (W := exW) ExTy.unresolved fun _ => (ExTy.unresolved, 0), on (W := exW) ExTy.int fun (x : Nat) => (ExTy.int, x),
   on (W := exW) ExTy.double fun (x : Nat) => (ExTy.double, x)]
example : visit exHs exV = some (ExTy.int, 7) := by decide

/-- C41 violated: if an earlier branch takes a type the held value converts to, that branch is called: a
`double` goes to the `int` branch although there is a `double` branch. -/
theorem conversion_wins_violated : visit exHs exV' = some (ExTy.int, 7) := by decide

/-- C41: deserialisation by index: `fn` is called iff the index is one of an alternative, with its type. -/
theorem match_by_type (alts : List W.Ty) (id : Int) (t : W.Ty) :
    matchByType alts id = some t ↔ 0 ≤ id ∧ alts[id.toNat]? = some t := by
  unfold matchByType
  split
  · rename_i h
    constructor
    · intro h'; cases h'
    · rintro ⟨h1, h2⟩
      have := (List.getElem?_eq_some_iff.1 h2).1
      omega
  · rename_i h
    have : 0 ≤ id := by omega
    simp [this]
example : matchByType (W := exW) exAlts 2 = some ExTy.double ∧ matchByType (W := exW) exAlts 3 = none
    ∧ matchByType (W := exW) exAlts (-1) = none := by decide

/-- C41: `match_when<T>` calls its function exactly if a `T` is held, with the held value; both ways the
code reaches it agree.  (`T` occurs at most once.) -/
theorem match_when {R : Type} {alts : List W.Ty} (t : W.Ty) (f : W.Val t → R) (v : Var W alts)
    (h : alts.count t ≤ 1) :
    matchWhen t f v = some (if h : alts[v.idx] = t then some (f (h ▸ v.val)) else none)
      ∧ matchWhenGeneric t f v = matchWhen t f v := by
  have h1 : matchWhen t f v = some (if h : alts[v.idx] = t then some (f (h ▸ v.val)) else none) := by
    unfold matchWhen
    split
    · rename_i hm
      have : alts.count t = 1 := by
        have := List.count_pos_iff.2 hm; omega
      simp [is, this]
    · rename_i hm
      rw [dif_neg]
      intro h'
      exact hm (h' ▸ List.getElem_mem _)
  refine ⟨h1, ?_⟩
  rw [h1]
  unfold matchWhenGeneric
  rw [visit_any]
example : exAlts.count ExTy.int ≤ 1 ∧ matchWhen (W := exW) ExTy.int (fun (x : Nat) => x) exV = some (some 7)
    ∧ matchWhen (W := exW) ExTy.double (fun (x : Nat) => x) exV = some none := by decide

/-- `mapped_overload` looks for the exact type: no conversions. -/
theorem mapped_overload {R : Type} {alts : List W.Ty} (map : (t : W.Ty) → Option (W.Val t → R))
    (otherwise : (t : W.Ty) → W.Val t → R) (v : Var W alts) :
    (∀ f : W.Val alts[v.idx] → R, map alts[v.idx] = some f → mappedOverload map otherwise v = some (f v.val))
      ∧ (map alts[v.idx] = none → mappedOverload map otherwise v = some (otherwise _ v.val)) := by
  unfold mappedOverload
  rw [visit_any]
  constructor
  · intro f h; rw [h]
  · intro h; rw [h]

/-- `make_optional_if` holds the value iff the condition is true. -/
theorem make_optional_if (nothing t : W.Ty) (hne : nothing ≠ t) (unit : W.Val nothing) (cond : Bool) (x : W.Val t) :
    matchWhen t (fun y => y) (makeOptionalIf nothing unit cond t x) = some (if cond then some x else none) := by
  have hc : [nothing, t].count t ≤ 1 := by simp [hne]
  rw [(match_when t _ _ hc).1]
  cases cond
  · simp [makeOptionalIf, hne]
  · simp [makeOptionalIf]

/-- C41 violated: matching with a key a variant whose value is not a store calls the visitor with the value
itself; the key is ignored. -/
theorem key_ignored_violated {K : Type} (S : StoreOps W K) {alts : List W.Ty} (v : Var W alts)
    (h : S.isStore alts[v.idx] = false) (k k' : K) : matchKey S v k = ⟨alts[v.idx], v.val⟩
      ∧ matchKey S v k = matchKey S v k' := by
  unfold matchKey
  rw [h]
  exact ⟨rfl, rfl⟩

/-- C41: `is<T>` compiles iff `T` is one of the alternatives, once, and then tells whether it is held. -/
theorem is_exact {alts : List W.Ty} (t : W.Ty) (v : Var W alts) (b : Bool) :
    is t v = some b ↔ alts.count t = 1 ∧ (b = true ↔ alts[v.idx] = t) := by
  unfold is
  by_cases h : alts.count t = 1
  · rw [if_pos h]
    by_cases hv : alts[v.idx] = t <;> cases b <;> simp [h, hv]
  · rw [if_neg h]
    simp [h]

private theorem count_two (l : List W.Ty) (t : W.Ty) (a b : Nat) (hab : a < b) (hb : b < l.length)
    (ha : l[a]'(Nat.lt_trans hab hb) = t) (hb' : l[b] = t) : 2 ≤ l.count t := by
  have e : l = l.take b ++ l.drop b := (List.take_append_drop b l).symm
  have h1 : t ∈ l.take b := List.mem_iff_getElem.2 ⟨a, by simp; omega, by simp [ha]⟩
  have h2 : t ∈ l.drop b := List.mem_iff_getElem.2 ⟨0, by simp; omega, by simp [hb']⟩
  have c1 : 0 < (l.take b).count t := List.count_pos_iff.2 h1
  have c2 : 0 < (l.drop b).count t := List.count_pos_iff.2 h2
  rw [e, List.count_append]
  omega

private theorem other_index (l : List W.Ty) (t : W.Ty) (i : Fin l.length) (h : 2 ≤ l.count t) :
    ∃ j : Fin l.length, j ≠ i ∧ l[j] = t := by
  have e : l = l.take i ++ (l[i] :: l.drop (i + 1)) := by
    rw [Fin.getElem_fin, ← List.drop_eq_getElem_cons i.isLt, List.take_append_drop]
  have hc : 0 < (l.take i).count t ∨ 0 < (l.drop (i + 1)).count t := by
    rw [e, List.count_append, List.count_cons] at h
    split at h <;> omega
  rcases hc with hc | hc
  · obtain ⟨k, hk, ek⟩ := List.getElem_of_mem (List.count_pos_iff.1 hc)
    have hk' : k < i.val := by rw [List.length_take] at hk; omega
    refine ⟨⟨k, by omega⟩, fun hh => ?_, ?_⟩
    · rw [← hh] at hk'; exact absurd hk' (Nat.lt_irrefl _)
    · rw [List.getElem_take] at ek; exact ek
  · obtain ⟨k, hk, ek⟩ := List.getElem_of_mem (List.count_pos_iff.1 hc)
    rw [List.length_drop] at hk
    refine ⟨⟨i + 1 + k, by omega⟩, fun hh => ?_, ?_⟩
    · have := congrArg Fin.val hh
      simp at this
      omega
    · rw [List.getElem_drop] at ek; exact ek

/-- No conversion is as good as none. -/
structure Ranked (rank : W.Ty → W.Ty → Option Nat) : Prop where
  same : ∀ t, rank t t = some 0
  other : ∀ t u, rank t u = some 0 → u = t

theorem best_exact {rank : W.Ty → W.Ty → Option Nat} (hr : Ranked rank) {alts : List W.Ty} {t : W.Ty}
    {i : Fin alts.length} (h : best rank alts t = some i) (ht : t ∈ alts) : alts[i] = t := by
  have hp := List.find?_some h
  obtain ⟨j, hj, e⟩ := List.getElem_of_mem ht
  cases hi : rank t alts[i] with
  | none => rw [hi] at hp; cases hp
  | some r =>
    simp only [hi, List.all_eq_true] at hp
    have := hp ⟨j, hj⟩ (List.mem_finRange _)
    rcases Bool.or_eq_true_iff.1 this with h1 | h1
    · rw [← of_decide_eq_true h1]; exact e
    · have e2 : rank t alts[(⟨j, hj⟩ : Fin alts.length)] = some 0 := by
        have : alts[(⟨j, hj⟩ : Fin alts.length)] = t := e
        rw [this]; exact hr.same t
      rw [e2] at h1
      exact absurd (of_decide_eq_true h1) (by omega)

/-- C41: a variant made of a value of one of its types, which occurs once, holds the value as this alternative. -/
theorem made_holds {rank : W.Ty → W.Ty → Option Nat} (hr : Ranked rank) (hconv : ∀ t, W.conv t t = some id)
    (alts : List W.Ty) (t : W.Ty) (x : W.Val t) (h : alts.count t = 1) :
    ∃ v, make rank alts t x = some v ∧ ∃ e : alts[v.idx] = t, e ▸ v.val = x := by
  have ht : t ∈ alts := List.count_pos_iff.1 (by omega)
  obtain ⟨n, hn, e⟩ := List.getElem_of_mem ht
  have uniq : ∀ j : Fin alts.length, alts[j] = t → j = ⟨n, hn⟩ := by
    intro j hj
    apply Fin.ext
    show j.val = n
    have hj' : alts[j.val] = t := hj
    rcases Nat.lt_trichotomy j.val n with hlt | heq | hlt
    · exact absurd h (by
        have := count_two alts t j.val n hlt hn hj' e
        omega)
    · exact heq
    · exact absurd h (by
        have := count_two alts t n j.val hlt j.isLt e hj'
        omega)
  have hb : best rank alts t = some ⟨n, hn⟩ := by
    cases hb : best rank alts t with
    | none =>
      have := List.find?_eq_none.1 hb ⟨n, hn⟩ (List.mem_finRange _)
      exfalso
      apply this
      have e2 : rank t alts[(⟨n, hn⟩ : Fin alts.length)] = some 0 := by
        have : alts[(⟨n, hn⟩ : Fin alts.length)] = t := e
        rw [this]; exact hr.same t
      simp only [e2, List.all_eq_true]
      intro j _
      by_cases hj : j = ⟨n, hn⟩
      · simp [hj]
      · rw [Bool.or_eq_true]
        right
        cases hq : rank t alts[j] with
        | none => rfl
        | some q =>
          have : q ≠ 0 := fun h0 => hj (uniq j (hr.other _ _ (h0 ▸ hq)))
          simp; omega
    | some i => rw [uniq i (best_exact hr hb ht)]
  have ec : alts[(⟨n, hn⟩ : Fin alts.length)] = t := e
  have hm : ∀ (u : W.Ty) (eu : u = t), ∃ c, W.conv t u = some c ∧ eu ▸ c x = x := by
    intro u eu
    subst eu
    exact ⟨id, hconv u, rfl⟩
  obtain ⟨c, hc, hx⟩ := hm _ ec
  refine ⟨⟨⟨n, hn⟩, c x⟩, ?_, ec, hx⟩
  unfold make
  rw [hb]
  simp only [hc, Option.map]

/-- C41: and matching it by this type hands over the value. -/
theorem made_matched {R : Type} {rank : W.Ty → W.Ty → Option Nat} (hr : Ranked rank) (hconv : ∀ t, W.conv t t = some id)
    (alts : List W.Ty) (t : W.Ty) (x : W.Val t) (h : alts.count t = 1) (f : W.Val t → R) :
    (make rank alts t x).bind (matchWhen t f) = some (some (f x)) := by
  obtain ⟨v, hv, e, hx⟩ := made_holds hr hconv alts t x h
  rw [hv, Option.bind, (match_when t f v (by omega)).1, dif_pos e]
  have : ∀ (u : W.Ty) (eu : u = t) (y : W.Val u), eu ▸ y = x → f (eu ▸ y) = f x := by
    intro u eu y hy; rw [hy]
  exact congrArg (fun z => some (some z)) (this _ e v.val hx)

/-- C41: a type that occurs twice is refused. -/
theorem made_twice {rank : W.Ty → W.Ty → Option Nat} (hr : Ranked rank) (alts : List W.Ty) (t : W.Ty) (x : W.Val t)
    (h : 2 ≤ alts.count t) : make rank alts t x = none := by
  unfold make
  cases hb : best rank alts t with
  | none => rfl
  | some i =>
    exfalso
    have ht : t ∈ alts := List.count_pos_iff.1 (by omega)
    have hi := best_exact hr hb ht
    have hp := List.find?_some hb
    have hri : rank t alts[i] = some 0 := by rw [hi]; exact hr.same t
    simp only [hri, List.all_eq_true] at hp
    obtain ⟨j, hj, e⟩ := other_index alts t i h
    have := hp j (List.mem_finRange _)
    have hrj : rank t alts[j] = some 0 := by rw [e]; exact hr.same t
    rw [hrj] at this
    simp [hj] at this

/-- The ranks of the sample: a `bool` converts to an `int`. -/
def exRank : ExTy → ExTy → Option Nat := fun t u => if t = u then some 0 else if (exW.conv t u).isSome then some 1 else none

example : Ranked (W := exW) exRank :=
  ⟨fun t => by cases t <;> rfl, fun t u h => by cases t <;> cases u <;> first | rfl | exact absurd h (by decide)⟩

end Nbdl.Variant
