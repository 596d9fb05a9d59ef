import Verif.StoreDef.Spec
import Verif.Dsl.Whole
/-!
# Store definitions: from the writer to the class
-/
namespace Nbdl.StoreDef
open Nbdl.Dsl

/-! ### Members -/

/-- A member with its key, type and operands. -/
structure Item where
  key : Key
  type : Text
  args : List Val

/-- The value of a member. -/
def Item.lhs (i : Item) : SVal := .store i.type i.args

/-- The members composed onto a value. -/
def wrap (v : SVal) : List Item → SVal
  | [] => v
  | i :: is => wrap (.compose i.key i.lhs v) is

/-- The entries of the members. -/
def tailed (above : List SVal) : List Item → List Entry
  | [] => []
  | i :: is => ⟨i.key, i.lhs, is.map Item.lhs ++ above⟩ :: tailed above is

theorem entries_wrap (is : List Item) (v : SVal) (above : List SVal) :
    entries (wrap v is) above = entries v (is.map Item.lhs ++ above) ++ tailed above is := by
  induction is generalizing v with
  | nil => simp [wrap, tailed]
  | cons i is ih => simp [wrap, tailed, ih, entries]

theorem baseOk_wrap (is : List Item) (v : SVal) : baseOk (wrap v is) = baseOk v := by
  induction is generalizing v with
  | nil => rfl
  | cons i is ih => simp [wrap, ih, baseOk]

/-- The uses of a parameter by a member. -/
def Item.uses (p : Nat) (i : Item) : Nat := (if i.key = .param p then 1 else 0) + i.args.count (.id p)

theorem uses_wrap (p : Nat) (is : List Item) (v : SVal) :
    uses p (wrap v is) = uses p v + (is.map (Item.uses p)).sum := by
  induction is generalizing v with
  | nil => simp [wrap]
  | cons i is ih => simp [wrap, ih, uses, Item.lhs, Item.uses]; omega

theorem findLaterUse_items (p : Nat) (is : List Item) :
    findLaterUse p (is.map Item.lhs) = some (is.any fun i => i.args.contains (.id p)) := by
  induction is with
  | nil => rfl
  | cons i is ih =>
    simp only [List.map_cons, findLaterUse, findUse, Item.lhs, List.any_cons]
    have := ih
    cases h : i.args.contains (.id p)
    · simpa [Item.lhs] using ih
    · simp

theorem sum_pos_of_mem (p : Nat) (is : List Item) (h : (is.any fun i => i.args.contains (.id p)) = true) :
    1 ≤ (is.map (Item.uses p)).sum := by
  induction is with
  | nil => simp at h
  | cons i is ih =>
    simp only [List.any_cons, Bool.or_eq_true] at h
    simp only [List.map_cons, List.sum_cons]
    rcases h with h | h
    · have : 0 < i.args.count (.id p) := by
        rw [List.count_pos_iff]; simpa using h
      simp only [Item.uses]; omega
    · have := ih h; omega

/-- When an argument is forwarded. -/
def fwd (args : List Val) (later : List Item) (p : Nat) : Bool :=
  decide (args.count (.id p) = 1) && !(later.any fun j => j.args.contains (.id p))

theorem forwards_eq (base : SVal) (pre post : List Item) (i : Item) (p : Nat) (hp : Val.id p ∈ i.args) :
    forwards (wrap base (pre ++ i :: post)) i.args (post.map Item.lhs) p = some (fwd i.args post p) := by
  unfold forwards
  have hc : 0 < i.args.count (.id p) := List.count_pos_iff.2 hp
  split
  · rename_i h
    rw [uses_wrap, List.map_append, List.sum_append, List.map_cons, List.sum_cons] at h
    have h1 : i.args.count (.id p) = 1 := by simp only [Item.uses] at h; omega
    have h2 : (post.any fun j => j.args.contains (.id p)) = false := by
      cases hh : (post.any fun j => j.args.contains (.id p)) with
      | false => rfl
      | true => have := sum_pos_of_mem p post hh; simp only [Item.uses] at h; omega
    unfold fwd
    rw [h1, h2]; rfl
  · split
    · rename_i h
      rw [findLaterUse_items]
      simp [fwd, h]
    · rename_i h
      simp [fwd, h]

/-! ### Arguments -/

/-- An operand that can be written. -/
def goodVal : Val → Bool
  | .id _ => true
  | .lit _ => true
  | .cexpr t => !t.isEmpty
  | _ => false

/-- The argument in the class. -/
def astArg (args : List Val) (later : List Item) : Val → CArg
  | .id p => .name (paramName p) (fwd args later p)
  | .lit (.int i) => .int i
  | .lit (.str s) => .str s
  | .cexpr t => .raw t
  | _ => .raw []

theorem writeArg_ast (base : SVal) (pre post : List Item) (i : Item) (a : Val) (ha : a ∈ i.args)
    (hg : goodVal a = true) :
    writeArg (wrap base (pre ++ i :: post)) i.args (post.map Item.lhs) a = .ok (astArg i.args post a).text := by
  cases a with
  | id p =>
    simp only [writeArg, forwards_eq base pre post i p ha, astArg]
    cases fwd i.args post p <;> simp [CArg.text]
  | lit l => cases l <;> simp [writeArg, astArg, CArg.text]
  | cexpr t =>
    have : t.isEmpty = false := by simpa [goodVal] using hg
    simp [writeArg, astArg, CArg.text, this]
  | const v => simp [goodVal] at hg
  | member t => simp [goodVal] at hg
  | unit => simp [goodVal] at hg

theorem commas_separated : ∀ ts, commas ts = separated (tx ", ") ts
  | [] => rfl
  | [t] => rfl
  | t :: u :: ts => by simp only [commas, separated, commas_separated (u :: ts), List.append_assoc]

theorem writeArgs_ast (base : SVal) (pre post : List Item) (i : Item) (l : List Val) (hl : ∀ a ∈ l, a ∈ i.args)
    (hg : ∀ a ∈ l, goodVal a = true) :
    writeArgs (wrap base (pre ++ i :: post)) i.args (post.map Item.lhs) l
      = .ok (separated (tx ", ") ((l.map (astArg i.args post)).map CArg.text)) := by
  induction l with
  | nil => rfl
  | cons a l ih =>
    have h1 := writeArg_ast base pre post i a (hl a (by simp)) (hg a (by simp))
    have h2 := ih (fun b hb => hl b (by simp [hb])) (fun b hb => hg b (by simp [hb]))
    cases l with
    | nil => simpa [writeArgs, separated] using h1
    | cons b l => simp only [writeArgs, h1, h2, Out.both, List.map_cons, separated, List.append_assoc]

/-! ### Members and class -/

/-- The members in the class. -/
def astMembers (cnt : Nat) : List Item → List CMember
  | [] => []
  | i :: is => ⟨i.type, (memberName cnt i.key).1, i.args.map (astArg i.args is)⟩ ::
      astMembers (memberName cnt i.key).2 is

/-- An item that can be written. -/
def Item.good (i : Item) : Bool := (i.key != .member []) && i.args.all goodVal

theorem memberName_ne (cnt : Nat) (k : Key) (h : k ≠ .member []) : (memberName cnt k).1.isEmpty = false := by
  cases k with
  | member n =>
    cases n with
    | nil => exact absurd rfl h
    | cons c n => rfl
  | text t => simp [memberName, tx]
  | param i => simp [memberName, tx]

theorem writeInit_ast (base : SVal) (pre post : List Item) (i : Item) (hg : i.good = true) (cnt : Nat) :
    writeInit (wrap base (pre ++ i :: post)) (memberName cnt i.key).1 ⟨i.key, i.lhs, post.map Item.lhs⟩
      = .ok (CMember.initText ⟨i.type, (memberName cnt i.key).1, i.args.map (astArg i.args post)⟩) := by
  simp only [Item.good, Bool.and_eq_true, bne_iff_ne, List.all_eq_true] at hg
  have h1 := memberName_ne cnt i.key hg.1
  have h2 := writeArgs_ast base pre post i i.args (fun _ h => h) hg.2
  simp [writeInit, Item.lhs, h1] at h2 ⊢
  simp [h2, Out.both, CMember.initText]

theorem writeInits_ast (base : SVal) (is : List Item) (pre : List Item) (hg : ∀ i ∈ is, i.good = true) (cnt : Nat) :
    writeInits (wrap base (pre ++ is)) (memberNames cnt (tailed [] is)) (tailed [] is)
      = .ok (separated (tx ", ") ((astMembers cnt is).map CMember.initText)) := by
  induction is generalizing pre cnt with
  | nil => rfl
  | cons i is ih =>
    have h1 := writeInit_ast base pre is i (hg i (by simp)) cnt
    have h2 := ih (pre ++ [i]) (fun j hj => hg j (by simp [hj])) (memberName cnt i.key).2
    rw [List.append_assoc, List.singleton_append] at h2
    cases is with
    | nil => simpa [tailed, memberNames, writeInits, astMembers, separated] using h1
    | cons j is =>
      simp only [tailed, memberNames, writeInits, List.append_nil, astMembers, List.map_cons, separated] at h1 h2 ⊢
      rw [h1, h2]
      simp [Out.both]

theorem writeDecls_ast (is : List Item) (cnt : Nat) :
    writeDecls (memberNames cnt (tailed [] is)) (tailed [] is)
      = .ok ((astMembers cnt is).map CMember.decl).flatten := by
  induction is generalizing cnt with
  | nil => rfl
  | cons i is ih =>
    simp only [tailed, memberNames, writeDecls, ih, astMembers, List.map_cons, List.flatten_cons]
    simp [writeDecl, visitType, Item.lhs, Out.both, CMember.decl]

/-- The class of the members. -/
def astClass (name : Text) (params : Nat) (is : List Item) : CClass :=
  ⟨name, (List.range params).map paramName, astMembers params is⟩

theorem createClass_ast (name : Text) (params : Nat) (base : SVal) (hb : baseOk base = true)
    (he : ∀ above, entries base above = []) (is : List Item) (hg : ∀ i ∈ is, i.good = true) :
    createClass name params (wrap base is) = .ok (astClass name params is).text := by
  have h1 := writeInits_ast base is [] hg params
  rw [List.nil_append] at h1
  simp only [createClass, entries_wrap, he, List.nil_append, baseOk_wrap, hb, if_true, writeConstructor, h1,
    writeDecls_ast, Out.both, astClass, CClass.text, commas_separated, List.map_map]
  have hp : ((List.range params).map paramName = []) ↔ params = 0 := by simp
  by_cases h0 : params = 0
  · subst h0
    simp [Function.comp_def]
    rfl
  · have : (List.range params).map paramName ≠ [] := fun h => h0 (hp.1 h)
    simp [h0, this, Function.comp_def]
    rfl

/-! ### The front end -/

/-- The operand of an argument. -/
def argVal : Expr → Val
  | .var x => .id x
  | .sym t => .cexpr t
  | .num i => .lit (.int i)
  | .str s => .lit (.str s)
  | _ => .unit

theorem buildArg_eq (params : Nat) (e : Expr) :
    buildArg params e = if argAccepted params e then some (argVal e) else none := by
  cases e with
  | var x => simp [buildArg, argAccepted, argVal]
  | sym t =>
    cases t with
    | nil => simp [buildArg, constant, argAccepted]
    | cons c t =>
      by_cases hc : c = '.'
      · subst hc; simp [buildArg, constant, argAccepted]
      · simp [buildArg, constant, argAccepted, argVal, hc]
  | num i => simp [buildArg, constant, argAccepted, argVal]
  | str s => simp [buildArg, constant, argAccepted, argVal]
  | path r ks => simp [buildArg, constant, argAccepted]
  | visit c as => simp [buildArg, constant, argAccepted]

theorem buildArgs_eq (params : Nat) (es : List Expr) :
    buildArgs params es = if es.all (argAccepted params) then some (es.map argVal) else none := by
  induction es with
  | nil => rfl
  | cons e es ih =>
    simp only [buildArgs, buildArg_eq, ih, List.all_cons, List.map_cons]
    cases argAccepted params e <;> cases es.all (argAccepted params) <;> simp

theorem goodVal_argVal (params : Nat) (e : Expr) (h : argAccepted params e = true) : goodVal (argVal e) = true := by
  cases e with
  | var x => rfl
  | sym t => cases t <;> simp [argAccepted] at h <;> rfl
  | num i => rfl
  | str s => rfl
  | path r ks => simp [argAccepted] at h
  | visit c as => simp [argAccepted] at h

/-- The member of an element. -/
def toItem : Elem → Item
  | .compose k (.store t es) => ⟨k, t, es.map argVal⟩
  | .compose k _ => ⟨k, [], []⟩
  | .single _ => ⟨.member [], [], []⟩

theorem buildKey_eq (params : Nat) (k : Key) (h : keyAccepted params k = true) : buildKey params k = some k := by
  cases k with
  | member n => rfl
  | text t =>
    cases t with
    | nil => simp [keyAccepted] at h
    | cons c t =>
      have : c ≠ '.' := by simpa [keyAccepted] using h
      unfold buildKey
      split <;> simp_all
  | param i => simpa [buildKey, keyAccepted] using h

theorem buildElems_members (params : Nat) (es : List Elem) (h : ∀ e ∈ es, memberAccepted params e = true)
    (parent : SVal) : buildElems params parent es = some (wrap parent (es.map toItem)) := by
  induction es generalizing parent with
  | nil => rfl
  | cons e es ih =>
    have he := h e (by simp)
    have ih := ih fun x hx => h x (by simp [hx])
    match e with
    | .compose k (.store t as) =>
      simp only [memberAccepted, Bool.and_eq_true] at he
      simp only [buildElems, buildKey_eq params k he.1, buildStore, buildArgs_eq, he.2, if_true, Option.map_some, ih,
        List.map_cons, wrap, toItem, Item.lhs]
    | .compose k (.variant s ss) => simp [memberAccepted] at he
    | .compose k (.param i) => simp [memberAccepted] at he
    | .single s => simp [memberAccepted] at he

theorem toItem_good (params : Nat) (e : Elem) (h : memberAccepted params e = true) : (toItem e).good = true := by
  match e with
  | .compose k (.store t as) =>
    simp only [memberAccepted, Bool.and_eq_true, List.all_eq_true] at h
    simp only [toItem, Item.good, Bool.and_eq_true, bne_iff_ne, List.all_eq_true, List.mem_map]
    refine ⟨?_, ?_⟩
    · rintro rfl; simp [keyAccepted] at h
    · rintro _ ⟨x, hx, rfl⟩
      exact goodVal_argVal params x (h.2 x hx)
  | .compose k (.variant s ss) => simp [memberAccepted] at h
  | .compose k (.param i) => simp [memberAccepted] at h
  | .single s => simp [memberAccepted] at h

theorem wrap_compose (is : List Item) (v : SVal) (h : is ≠ []) : ∃ k l r, wrap v is = .compose k l r := by
  induction is generalizing v with
  | nil => exact absurd rfl h
  | cons i is ih =>
    cases is with
    | nil => exact ⟨_, _, _, rfl⟩
    | cons j js => exact ih _ (by simp)

/-- A definition by members only, after a unit or a parameter. -/
theorem writeStore_members (name : Text) (params : Nat) (base : SVal) (hb : baseOk base = true)
    (hn : ∀ above, entries base above = []) (es : List Elem) (hne : es ≠ [])
    (h : ∀ e ∈ es, memberAccepted params e = true) :
    writeStore name params (wrap base (es.map toItem))
      = .ok (astClass (getName name) params (es.map toItem)).text := by
  have hg : ∀ i ∈ es.map toItem, i.good = true := by
    intro i hi
    obtain ⟨e, he, rfl⟩ := List.mem_map.1 hi
    exact toItem_good params e (h e he)
  have hc := createClass_ast (getName name) params base hb hn (es.map toItem) hg
  obtain ⟨k, l, r, hw⟩ := wrap_compose (es.map toItem) base (by simpa using hne)
  rw [hw] at hc ⊢
  exact hc

/-! ### Refusals -/

theorem both_ok (f : Text → Text → Text) (a b : Out) (t : Text) (h : Out.both f a b = .ok t) :
    (∃ x, a = .ok x) ∧ ∃ y, b = .ok y := by
  cases a <;> cases b <;> simp [Out.both] at h
  exact ⟨⟨_, rfl⟩, ⟨_, rfl⟩⟩

theorem writeInits_stores (whole : SVal) (es : List Entry) (cnt : Nat) (t : Text)
    (h : writeInits whole (memberNames cnt es) es = .ok t) :
    ∀ e ∈ es, (∃ ty as, e.lhs = .store ty as) ∧ e.key ≠ .member [] := by
  have key : ∀ e n t, writeInit whole (memberName n e.key).1 e = .ok t →
      (∃ ty as, e.lhs = .store ty as) ∧ e.key ≠ .member [] := by
    intro e n t h
    unfold writeInit at h
    split at h
    · rename_i ty as hl
      refine ⟨⟨ty, as, hl⟩, fun hk => ?_⟩
      obtain ⟨⟨x, hx⟩, -⟩ := both_ok _ _ _ _ h
      rw [hk] at hx
      simp [memberName] at hx
    · simp at h
  induction es generalizing cnt t with
  | nil => simp
  | cons e es ih =>
    cases es with
    | nil =>
      simp only [memberNames, writeInits] at h
      intro x hx
      simp only [List.mem_singleton] at hx
      subst hx
      exact key x cnt t h
    | cons f es =>
      simp only [memberNames, writeInits] at h
      obtain ⟨⟨x, hx⟩, ⟨y, hy⟩⟩ := both_ok _ _ _ _ h
      intro z hz
      rcases List.mem_cons.1 hz with rfl | hz
      · exact key z cnt x hx
      · exact ih _ y hy z hz

theorem createClass_ok (name : Text) (params : Nat) (v : SVal) (t : Text) (h : createClass name params v = .ok t) :
    baseOk v = true ∧ ∀ e ∈ entries v [], (∃ ty as, e.lhs = .store ty as) ∧ e.key ≠ .member [] := by
  simp only [createClass] at h
  obtain ⟨⟨x, hx⟩, ⟨y, hy⟩⟩ := both_ok _ _ _ _ h
  obtain ⟨⟨u, hu⟩, -⟩ := both_ok _ _ _ _ hx
  obtain ⟨-, ⟨z, hz⟩⟩ := both_ok _ _ _ _ hy
  refine ⟨?_, writeInits_stores v _ _ z hz⟩
  cases hb : baseOk v with
  | true => rfl
  | false => simp [hb] at hu

theorem buildStore_store (params : Nat) (s : Store) (ty : Text) (as : List Val)
    (h : buildStore params s = some (.store ty as)) :
    ∃ es, s = .store ty es ∧ es.all (argAccepted params) = true := by
  cases s with
  | store t es =>
    simp only [buildStore, buildArgs_eq] at h
    cases he : es.all (argAccepted params) with
    | false => simp [he] at h
    | true => simp [he] at h; exact ⟨es, by rw [h.1], he⟩
  | variant s ss =>
    simp only [buildStore] at h
    split at h
    · simp at h
    · split at h <;> simp at h
  | param i => simp [buildStore] at h

theorem buildKey_some (params : Nat) (k k' : Key) (h : buildKey params k = some k') (hk : k' ≠ .member []) :
    k' = k ∧ keyAccepted params k = true := by
  cases k with
  | member n =>
    simp [buildKey] at h
    subst h
    refine ⟨rfl, ?_⟩
    simpa [keyAccepted] using hk
  | text t =>
    cases t with
    | nil => simp [buildKey] at h
    | cons c t =>
      by_cases hc : c = '.'
      · subst hc; simp [buildKey] at h
      · simp [buildKey, hc] at h
        exact ⟨h.symm, by simp [keyAccepted, hc]⟩
  | param i =>
    simp only [buildKey] at h
    split at h
    · rename_i hi; simp at h; exact ⟨h.symm, by simp [keyAccepted, hi]⟩
    · simp at h

/-- Every entry of a value that elements were composed onto is one of them or was there before. -/
theorem buildElems_ok (params : Nat) (es : List Elem) (parent v : SVal) (hp : parent.isUnit = false)
    (h : buildElems params parent es = some v) (above : List SVal)
    (hv : ∀ e ∈ entries v above, (∃ ty as, e.lhs = .store ty as) ∧ e.key ≠ .member []) :
    (∀ e ∈ es, memberAccepted params e = true) ∧ baseOk v = baseOk parent ∧
      ∃ above', ∀ e ∈ entries parent above', (∃ ty as, e.lhs = .store ty as) ∧ e.key ≠ .member [] := by
  induction es generalizing parent with
  | nil =>
    simp only [buildElems, Option.some.injEq] at h
    subst h
    exact ⟨by simp, rfl, above, hv⟩
  | cons e es ih =>
    match e with
    | .single s =>
      simp only [buildElems] at h
      split at h
      · simp at h
      · rw [hp] at h; simp at h
    | .compose k s =>
      simp only [buildElems] at h
      split at h
      · simp at h
      · rename_i k' hk
        split at h
        · simp at h
        · rename_i u hu
          obtain ⟨h1, h2, above', h3⟩ := ih (.compose k' u parent) rfl h
          have h4 := h3 ⟨k', u, above'⟩ (by simp [entries])
          obtain ⟨⟨ty, as, hl⟩, hne⟩ := h4
          simp only at hl hne
          subst hl
          obtain ⟨as', rfl, has⟩ := buildStore_store params s ty as hu
          obtain ⟨-, hka⟩ := buildKey_some params k k' hk hne
          refine ⟨?_, by rw [h2]; rfl, .store ty as :: above', ?_⟩
          · intro x hx
            rcases List.mem_cons.1 hx with rfl | hx
            · simp [memberAccepted, hka, has]
            · exact h1 x hx
          · intro x hx
            exact h3 x (by simp [entries, hx])

mutual
theorem visitType_typed (params : Nat) : ∀ (s : Store) (v : SVal), buildStore params s = some v →
    (visitType v).isSome = s.typed params
  | .store t es, v, h => by
    simp only [buildStore, buildArgs_eq] at h
    cases he : es.all (argAccepted params) with
    | false => simp [he] at h
    | true => simp [he] at h; subst h; simp [visitType, Store.typed, he]
  | .param i, v, h => by
    simp only [buildStore] at h
    split at h
    · simp at h; subst h; rfl
    · simp at h
  | .variant s ss, v, h => by
    simp only [buildStore] at h
    split at h
    · simp at h
    · rename_i u hu
      split at h
      · simp at h
      · rename_i us hus
        simp at h; subst h
        have h1 := visitType_typed params s u hu
        have h2 := visitTypes_typed params ss us hus
        simp only [visitType, visitTypes, Store.typed]
        cases ha : visitType u <;> cases hb : visitTypes us <;> simp_all
theorem visitTypes_typed (params : Nat) : ∀ (ss : List Store) (vs : List SVal), buildStores params ss = some vs →
    (visitTypes vs).isSome = typedAll params ss
  | [], vs, h => by simp [buildStores] at h; subst h; rfl
  | s :: ss, vs, h => by
    simp only [buildStores] at h
    split at h
    · simp at h
    · rename_i u hu
      split at h
      · simp at h
      · rename_i us hus
        simp at h; subst h
        have h1 := visitType_typed params s u hu
        have h2 := visitTypes_typed params ss us hus
        simp only [visitTypes, typedAll]
        cases ha : visitType u <;> cases hb : visitTypes us <;> simp_all
end

mutual
theorem buildStore_typed (params : Nat) : ∀ (s : Store), s.typed params = true → (buildStore params s).isSome = true
  | .store t es, h => by simp [Store.typed] at h; simp [buildStore, buildArgs_eq]; simpa using h
  | .param i, h => by simp [Store.typed] at h
  | .variant s ss, h => by
    simp only [Store.typed, Bool.and_eq_true] at h
    have h1 := buildStore_typed params s h.1
    have h2 := buildStores_typed params ss h.2
    simp only [buildStore]
    cases ha : buildStore params s <;> cases hb : buildStores params ss <;> simp_all
theorem buildStores_typed (params : Nat) : ∀ (ss : List Store), typedAll params ss = true →
    (buildStores params ss).isSome = true
  | [], _ => rfl
  | s :: ss, h => by
    simp only [typedAll, Bool.and_eq_true] at h
    have h1 := buildStore_typed params s h.1
    have h2 := buildStores_typed params ss h.2
    simp only [buildStores]
    cases ha : buildStore params s <;> cases hb : buildStores params ss <;> simp_all
end

end Nbdl.StoreDef
