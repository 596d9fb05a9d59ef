import Verif.StoreDef.Lemmas
/-!
# Store definitions: running the constructor
-/
namespace Nbdl.StoreDef
open Nbdl.Dsl

theorem paramName_inj {i j : Nat} (h : paramName i = paramName j) : i = j := by
  simp only [paramName, List.append_cancel_left_eq, toString_toList] at h
  exact toDigits_inj h

/-! ### Reading arguments -/

/-- The two are the same parameter, and one of them is forwarded. -/
def clash : CArg → CArg → Prop
  | .name x f, .name y g => x = y ∧ (f = true ∨ g = true)
  | _, _ => False

theorem clash_symm {a b : CArg} (h : ¬ clash a b) : ¬ clash b a := by
  cases a <;> cases b <;> simp_all [clash]

theorem readAll_some (l : List CArg) (moved : List Text) (hp : l.Pairwise fun a b => ¬ clash a b)
    (hm : ∀ x f, .name x f ∈ l → x ∉ moved) :
    ∃ moved', readAll moved l = some moved' ∧ ∀ x ∈ moved', x ∈ moved ∨ .name x true ∈ l := by
  induction l generalizing moved with
  | nil => exact ⟨moved, rfl, fun x h => .inl h⟩
  | cons a l ih =>
    rw [List.pairwise_cons] at hp
    have step : ∀ moved, (∀ x f, CArg.name x f ∈ l → x ∉ moved) → _ := fun m => ih m hp.2
    cases a with
    | name x f =>
      have hx := hm x f (by simp)
      cases f with
      | false =>
        obtain ⟨m', h1, h2⟩ := step moved fun y g hy => hm y g (by simp [hy])
        refine ⟨m', by simp [readAll, hx, h1], fun y hy => ?_⟩
        rcases h2 y hy with h | h
        · exact .inl h
        · exact .inr (by simp [h])
      | true =>
        obtain ⟨m', h1, h2⟩ := step (x :: moved) fun y g hy hmem => by
          rcases List.mem_cons.1 hmem with rfl | hmem
          · exact hp.1 _ hy ⟨rfl, .inl rfl⟩
          · exact hm y g (by simp [hy]) hmem
        refine ⟨m', by simp [readAll, hx, h1], fun y hy => ?_⟩
        rcases h2 y hy with h | h
        · rcases List.mem_cons.1 h with rfl | h
          · exact .inr (by simp)
          · exact .inl h
        · exact .inr (by simp [h])
    | int i =>
      obtain ⟨m', h1, h2⟩ := step moved fun y g hy => hm y g (by simp [hy])
      exact ⟨m', by simp [readAll, h1], fun y hy => (h2 y hy).imp id fun h => by simp [h]⟩
    | str t =>
      obtain ⟨m', h1, h2⟩ := step moved fun y g hy => hm y g (by simp [hy])
      exact ⟨m', by simp [readAll, h1], fun y hy => (h2 y hy).imp id fun h => by simp [h]⟩
    | raw t =>
      obtain ⟨m', h1, h2⟩ := step moved fun y g hy => hm y g (by simp [hy])
      exact ⟨m', by simp [readAll, h1], fun y hy => (h2 y hy).imp id fun h => by simp [h]⟩

theorem astArg_name (args : List Val) (later : List Item) (a : Val) (x : Text) (f : Bool)
    (h : astArg args later a = .name x f) : ∃ p, a = .id p ∧ x = paramName p ∧ f = fwd args later p := by
  cases a with
  | id p => simp [astArg] at h; exact ⟨p, rfl, h.1.symm, h.2.symm⟩
  | lit l => cases l <;> simp [astArg] at h
  | cexpr t => simp [astArg] at h
  | const v => simp [astArg] at h
  | member t => simp [astArg] at h
  | unit => simp [astArg] at h

theorem astArgs_pairwise (args : List Val) (later : List Item) :
    (args.map (astArg args later)).Pairwise fun a b => ¬ clash a b := by
  rw [List.pairwise_map, List.pairwise_iff_forall_sublist]
  intro a b hab hc
  cases ha : astArg args later a with
  | name x f =>
    cases hb : astArg args later b with
    | name y g =>
      rw [ha, hb] at hc
      obtain ⟨p, rfl, rfl, rfl⟩ := astArg_name _ _ _ _ _ ha
      obtain ⟨q, rfl, rfl, rfl⟩ := astArg_name _ _ _ _ _ hb
      obtain ⟨h1, h2⟩ := hc
      have := paramName_inj h1
      subst this
      have h3 := hab.count_le (.id p)
      simp only [fwd, Bool.and_eq_true, decide_eq_true_eq, or_self] at h2
      simp at h3
      omega
    | int i => rw [ha, hb] at hc; exact hc
    | str i => rw [ha, hb] at hc; exact hc
    | raw i => rw [ha, hb] at hc; exact hc
  | int i => rw [ha] at hc; exact hc
  | str i => rw [ha] at hc; exact hc
  | raw i => rw [ha] at hc; exact hc

/-! ### Values -/

variable {V : Type}

theorem lookup_params (args : List V) (n s i : Nat) (hi : i < n) :
    ((((List.range' s n).map paramName).zip args).lookup (paramName (s + i))) = args[i]? := by
  induction n generalizing s i args with
  | zero => omega
  | succ n ih =>
    cases args with
    | nil => simp
    | cons a args =>
      simp only [List.range'_succ, List.map_cons, List.zip_cons_cons, List.lookup_cons]
      cases i with
      | zero => simp
      | succ i =>
        have hne : (paramName (s + (i + 1)) == paramName s) = false := by
          rw [beq_eq_false_iff_ne]
          intro h
          have := paramName_inj h
          omega
        rw [hne]
        have := ih args (s + 1) i (by omega)
        rw [show s + 1 + i = s + (i + 1) by omega] at this
        simpa using this

theorem bindParams_param (params : Nat) (args : List V) (p : Nat) (h : p < params) :
    bindParams ((List.range params).map paramName) args (paramName p) = args[p]? := by
  have := lookup_params args params 0 p h
  simpa [bindParams, List.range_eq_range'] using this

theorem value_astArg (w : Consts V) (params : Nat) (args : List V) (vs : List Val) (later : List Item) (e : Expr)
    (ha : argAccepted params e = true) (hs : ∀ s, e = .str s → unquote s = some s) :
    (astArg vs later (argVal e)).value w (bindParams ((List.range params).map paramName) args) = argValue w args e := by
  cases e with
  | var x =>
    have : x < params := by simpa [argAccepted] using ha
    simp [argVal, astArg, CArg.value, argValue, bindParams_param, this]
  | sym t => simp [argVal, astArg, CArg.value, argValue]
  | num i => simp [argVal, astArg, CArg.value, argValue]
  | str s => simp [argVal, astArg, CArg.value, argValue, hs s rfl]
  | path r ks => simp [argAccepted] at ha
  | visit c as => simp [argAccepted] at ha

theorem values_astArgs (w : Consts V) (params : Nat) (args : List V) (vs : List Val) (later : List Item)
    (es : List Expr) (ha : ∀ e ∈ es, argAccepted params e = true) (hs : ∀ s, .str s ∈ es → unquote s = some s) :
    values w (bindParams ((List.range params).map paramName) args) ((es.map argVal).map (astArg vs later))
      = argValues w args es := by
  induction es with
  | nil => rfl
  | cons e es ih =>
    have h1 := value_astArg w params args vs later e (ha e (by simp)) (fun s h => hs s (by simp [h]))
    have h2 := ih (fun x hx => ha x (by simp [hx])) (fun s h => hs s (by simp [h]))
    simp only [List.map_cons, values, argValues, h1, h2]

theorem argValues_some (w : Consts V) (params : Nat) (args : List V) (hl : args.length = params) (es : List Expr)
    (ha : ∀ e ∈ es, argAccepted params e = true) : ∃ vs, argValues w args es = some vs := by
  induction es with
  | nil => exact ⟨_, rfl⟩
  | cons e es ih =>
    obtain ⟨vs, hvs⟩ := ih fun x hx => ha x (by simp [hx])
    have he := ha e (by simp)
    have : ∃ v, argValue w args e = some v := by
      cases e with
      | var x =>
        have : x < params := by simpa [argAccepted] using he
        exact ⟨args[x], by simp [argValue, hl, this]⟩
      | sym t => exact ⟨_, rfl⟩
      | num i => exact ⟨_, rfl⟩
      | str s => exact ⟨_, rfl⟩
      | path r ks => simp [argAccepted] at he
      | visit c as => simp [argAccepted] at he
    obtain ⟨v, hv⟩ := this
    exact ⟨v :: vs, by simp [argValues, hv, hvs]⟩

/-! ### The constructor -/

theorem construct_described (w : Consts V) (params : Nat) (args : List V) (hl : args.length = params)
    (es : List Elem) (h : ∀ e ∈ es, memberAccepted params e = true)
    (hs : ∀ k t xs s, .compose k (.store t xs) ∈ es → .str s ∈ xs → unquote s = some s)
    (cnt : Nat) (moved : List Text) (hm : ∀ x ∈ moved, ∀ i ∈ es.map toItem, ∀ p, x = paramName p → .id p ∉ i.args)
    (orders : List (List CArg)) (ho : Orders (astMembers cnt (es.map toItem)) orders) :
    ∃ r, construct w (bindParams ((List.range params).map paramName) args) moved (astMembers cnt (es.map toItem))
        orders = some r ∧
      described w args es = some (r.map (·.2)) ∧ r.map (·.1) = (astMembers cnt (es.map toItem)).map (·.name) := by
  induction es generalizing cnt moved orders with
  | nil =>
    cases orders with
    | nil => exact ⟨[], rfl, rfl, rfl⟩
    | cons o os => exact absurd ho (by simp [astMembers, Orders])
  | cons e es ih =>
    have he := h e (by simp)
    match e with
    | .compose k (.variant s ss) => simp [memberAccepted] at he
    | .compose k (.param i) => simp [memberAccepted] at he
    | .single s => simp [memberAccepted] at he
    | .compose k (.store t xs) =>
      simp only [memberAccepted, Bool.and_eq_true, List.all_eq_true] at he
      cases orders with
      | nil => exact absurd ho (by simp [astMembers, Orders])
      | cons order orders =>
        simp only [List.map_cons, toItem, astMembers, Orders] at ho ⊢
        have hv := values_astArgs w params args (xs.map argVal) (es.map toItem) xs he.2
          (fun s hx => hs k t xs s (by simp) hx)
        obtain ⟨vs, hvs⟩ := argValues_some w params args hl xs he.2
        have hmem : ∀ x f, CArg.name x f ∈ order → ∃ p, .id p ∈ xs.map argVal ∧ x = paramName p ∧
            f = fwd (xs.map argVal) (es.map toItem) p := by
          intro x f hx
          obtain ⟨a, ha, hax⟩ := List.mem_map.1 (ho.1.mem_iff.1 hx)
          obtain ⟨p, rfl, h1, h2⟩ := astArg_name _ _ _ _ _ hax
          exact ⟨p, ha, h1, h2⟩
        obtain ⟨moved', hr, hr'⟩ := readAll_some order moved
          ((astArgs_pairwise (xs.map argVal) (es.map toItem)).perm ho.1.symm clash_symm)
          (by
            intro x f hx hmx
            obtain ⟨p, hp, rfl, -⟩ := hmem x f hx
            exact hm _ hmx _ (List.mem_cons_self ..) p rfl hp)
        obtain ⟨r, h1, h2, h3⟩ := ih (fun x hx => h x (by simp [hx]))
          (fun k t xs s hx => hs k t xs s (by simp [hx])) (memberName cnt k).2 moved'
          (by
            intro x hx i hi p hxp
            rcases hr' x hx with hx | hx
            · exact hm x hx i (by rw [List.map_cons]; exact List.mem_cons_of_mem _ hi) p hxp
            · obtain ⟨q, hq, hxq, hf⟩ := hmem x true hx
              have := paramName_inj (hxp.symm.trans hxq)
              subst this
              simp only [fwd, Bool.true_eq, Bool.and_eq_true, Bool.not_eq_true', List.any_eq_false] at hf
              intro hc
              exact hf.2 i hi (by simpa using hc))
          orders ho.2
        refine ⟨((memberName cnt k).1, t, vs) :: r, ?_, ?_, ?_⟩
        · simp only [construct, hv, hvs, hr, h1]; rfl
        · simp [described, hvs, h2]
        · simp [h3]

/-! ### Members -/

theorem astMembers_length (cnt : Nat) (is : List Item) : (astMembers cnt is).length = is.length := by
  induction is generalizing cnt with
  | nil => rfl
  | cons i is ih => simp [astMembers, ih]

theorem astMembers_getElem (cnt : Nat) (is : List Item) (j : Nat) (i : Item) (h : is[j]? = some i) :
    ∃ m, (astMembers cnt is)[j]? = some m ∧ m.type = i.type ∧ m.init.length = i.args.length ∧
      ∀ n, i.key = .member n → m.name = n := by
  induction is generalizing cnt j with
  | nil => simp at h
  | cons a is ih =>
    cases j with
    | zero =>
      simp only [List.getElem?_cons_zero, Option.some.injEq] at h
      subst h
      refine ⟨_, rfl, rfl, by simp, fun n hn => by simp [hn, memberName]⟩
    | succ j => simpa [astMembers] using ih _ j (by simpa using h)

/-- The name of an anonymous member. -/
def anon (n : Nat) : Text := tx "anon_" ++ (toString n).toList

theorem anon_inj {i j : Nat} (h : anon i = anon j) : i = j := by
  simp only [anon, List.append_cancel_left_eq, toString_toList] at h
  exact toDigits_inj h

theorem memberName_cases (cnt : Nat) (k : Key) :
    (∃ n, k = .member n ∧ memberName cnt k = (n, cnt)) ∨
      ((∀ n, k ≠ .member n) ∧ memberName cnt k = (anon cnt, cnt + 1)) := by
  cases k <;> simp [memberName, anon]

/-- The names given among the items. -/
def givenOf : List Item → List Text
  | [] => []
  | i :: is => match i.key with | .member n => n :: givenOf is | _ => givenOf is

theorem astMembers_names (cnt : Nat) (is : List Item) (hg : (givenOf is).Nodup) (ha : ∀ n, anon n ∉ givenOf is) :
    ((astMembers cnt is).map (·.name)).Nodup ∧
      ∀ x ∈ (astMembers cnt is).map (·.name), x ∈ givenOf is ∨ ∃ n, cnt ≤ n ∧ x = anon n := by
  induction is generalizing cnt with
  | nil => simp [astMembers]
  | cons i is ih =>
    rcases memberName_cases cnt i.key with ⟨n, hk, hm⟩ | ⟨hk, hm⟩
    · have hgi : givenOf (i :: is) = n :: givenOf is := by simp [givenOf, hk]
      rw [hgi] at hg ha ⊢
      rw [List.nodup_cons] at hg
      obtain ⟨h1, h2⟩ := ih cnt hg.2 fun m hm => ha m (by simp [hm])
      simp only [astMembers, hm, List.map_cons, List.nodup_cons]
      refine ⟨⟨fun hc => ?_, h1⟩, ?_⟩
      · rcases h2 n hc with h | ⟨m, -, h⟩
        · exact hg.1 h
        · exact ha m (by simp [h])
      · intro x hx
        rcases List.mem_cons.1 hx with rfl | hx
        · exact .inl (by simp)
        · exact (h2 x hx).imp (fun h => by simp [h]) id
    · have hgi : givenOf (i :: is) = givenOf is := by
        simp only [givenOf]
      rw [hgi] at hg ha ⊢
      obtain ⟨h1, h2⟩ := ih (cnt + 1) hg ha
      simp only [astMembers, hm, List.map_cons, List.nodup_cons]
      refine ⟨⟨fun hc => ?_, h1⟩, ?_⟩
      · rcases h2 _ hc with h | ⟨m, hle, h⟩
        · exact ha _ h
        · have := anon_inj h; omega
      · intro x hx
        rcases List.mem_cons.1 hx with rfl | hx
        · exact .inr ⟨cnt, Nat.le_refl _, rfl⟩
        · rcases h2 x hx with h | ⟨m, hle, h⟩
          · exact .inl h
          · exact .inr ⟨m, by omega, h⟩

theorem givenOf_elems (params : Nat) (es : List Elem) (h : ∀ e ∈ es, memberAccepted params e = true) :
    givenOf (es.map toItem)
      = es.filterMap fun e => match e with | .compose (.member n) _ => some n | _ => none := by
  induction es with
  | nil => rfl
  | cons e es ih =>
    have ih := ih fun x hx => h x (by simp [hx])
    have he := h e (by simp)
    match e with
    | .compose k (.variant s ss) => simp [memberAccepted] at he
    | .compose k (.param i) => simp [memberAccepted] at he
    | .single s => simp [memberAccepted] at he
    | .compose (.member n) (.store t xs) => simp [toItem, givenOf, ih]
    | .compose (.text n) (.store t xs) => simp [toItem, givenOf, ih]
    | .compose (.param n) (.store t xs) => simp [toItem, givenOf, ih]

/-! ### When an argument is forwarded -/

theorem mentions_astArg (args : List Val) (later : List Item) (p : Nat) (a : Val) :
    (astArg args later a).mentions (paramName p) = true ↔ a = .id p := by
  constructor
  · intro h
    cases ha : astArg args later a with
    | name x f =>
      obtain ⟨q, rfl, rfl, -⟩ := astArg_name _ _ _ _ _ ha
      rw [ha] at h
      have h : paramName p = paramName q := by simpa [CArg.mentions] using h
      rw [paramName_inj h]
    | int i => simp [ha, CArg.mentions] at h
    | str i => simp [ha, CArg.mentions] at h
    | raw i => simp [ha, CArg.mentions] at h
  · rintro rfl
    simp [astArg, CArg.mentions]

theorem count_split (args l r : List Val) (a : Val) (h : args = l ++ a :: r) :
    args.count a = 1 ↔ a ∉ l ++ r := by
  subst h
  simp only [List.count_append, List.count_cons_self, List.mem_append, not_or]
  rw [← List.count_eq_zero, ← List.count_eq_zero]
  omega

theorem astMembers_mentions (cnt : Nat) (is : List Item) (p : Nat) :
    (∀ m ∈ astMembers cnt is, ∀ a ∈ m.init, a.mentions (paramName p) = false) ↔
      (is.any fun j => j.args.contains (.id p)) = false := by
  induction is generalizing cnt with
  | nil => simp [astMembers]
  | cons i is ih =>
    simp only [astMembers, List.mem_cons, forall_eq_or_imp, List.any_cons, Bool.or_eq_false_iff, ih]
    apply and_congr_left
    intro _
    simp only [List.mem_map, forall_exists_index, and_imp, forall_apply_eq_imp_iff₂]
    constructor
    · intro h
      rw [← Bool.not_eq_true, List.contains_iff_mem]
      intro hc
      have := h _ hc
      rw [(mentions_astArg _ _ p _).2 rfl] at this
      cases this
    · intro h a ha
      rw [← Bool.not_eq_true, mentions_astArg]
      rintro rfl
      rw [← Bool.not_eq_true, List.contains_iff_mem] at h
      exact h ha

theorem astMembers_split (cnt : Nat) (is : List Item) (pre post : List CMember) (m : CMember)
    (h : astMembers cnt is = pre ++ m :: post) :
    ∃ (i : Item) (later : List Item) (cnt' : Nat), m.init = i.args.map (astArg i.args later) ∧ post = astMembers cnt' later := by
  induction is generalizing cnt pre with
  | nil => simp [astMembers] at h
  | cons i is ih =>
    cases pre with
    | nil =>
      simp only [astMembers, List.nil_append, List.cons.injEq] at h
      exact ⟨i, is, _, by rw [← h.1], h.2.symm⟩
    | cons q pre =>
      simp only [astMembers, List.cons_append, List.cons.injEq] at h
      exact ih _ pre h.2

theorem forwarded_iff (cnt : Nat) (is : List Item) (pre post : List CMember) (m : CMember) (l r : List CArg) (x : Text)
    (f : Bool) (h : astMembers cnt is = pre ++ m :: post) (hm : m.init = l ++ .name x f :: r) :
    f = true ↔ (∀ a ∈ l ++ r, a.mentions x = false) ∧ ∀ n ∈ post, ∀ a ∈ n.init, a.mentions x = false := by
  obtain ⟨i, later, cnt', hi, rfl⟩ := astMembers_split cnt is pre post m h
  rw [hi] at hm
  obtain ⟨l', r', hlr, hl, hr⟩ := List.map_eq_append_iff.1 hm
  obtain ⟨a, r'', rfl, ha, hr'⟩ := List.map_eq_cons_iff.1 hr
  obtain ⟨p, rfl, rfl, rfl⟩ := astArg_name _ _ _ _ _ ha
  rw [astMembers_mentions]
  simp only [fwd, Bool.and_eq_true, decide_eq_true_eq, Bool.not_eq_true']
  apply and_congr_left
  intro _
  rw [count_split _ _ _ _ hlr, ← hl, ← hr', ← List.map_append]
  constructor
  · intro hn a ha
    obtain ⟨b, hb, rfl⟩ := List.mem_map.1 ha
    rw [← Bool.not_eq_true, mentions_astArg]
    rintro rfl
    exact hn hb
  · intro hn hc
    have := hn _ (List.mem_map_of_mem hc)
    rw [(mentions_astArg _ _ p _).2 rfl] at this
    cases this

/-! ### Names -/

theorem paramName_identifier (i : Nat) : identifier (paramName i) = true := by
  have h : (Nat.toDigits 10 i).all (fun d => d.isAlphanum || d == '_') = true := by
    rw [List.all_eq_true]
    intro c hc
    have := Nat.isDigit_of_mem_toDigits (by decide) (by decide) hc
    simp [Char.isAlphanum, this]
  simp only [paramName, toString_toList]
  simp only [identifier, tx]
  simpa using h

theorem getName_plain (s : Text) (h : ':' ∉ s) : getName s = lastComponent s := by
  have h1 : s.reverse.idxOf? ':' = none := by simpa [List.idxOf?_eq_none_iff] using h
  have h2 : s.reverse.takeWhile (· ≠ ':') = s.reverse := by
    have := List.takeWhile_append_of_pos (p := (· ≠ ':')) (l₁ := s.reverse) (l₂ := []) ?_
    · simpa using this
    intro x hx
    simp only [ne_eq, decide_not, Bool.not_eq_true', decide_eq_false_iff_not]
    rintro rfl
    exact h (by simpa using hx)
  simp only [getName, rfind, h1, takeBack, lastComponent]
  rw [h2, List.reverse_reverse]

end Nbdl.StoreDef
