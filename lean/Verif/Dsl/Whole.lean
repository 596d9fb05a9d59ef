import Verif.Dsl.Body
/-!
# Whole functions
-/
namespace Nbdl.Dsl

variable {σ V : Type}

/-! ### Names are told apart by their text -/

theorem toString_toList (n : Nat) : (toString n).toList = Nat.toDigits 10 n := Nat.toList_repr

theorem toDigits_inj {m n : Nat} (h : Nat.toDigits 10 m = Nat.toDigits 10 n) : m = n := by
  have := congrArg (fun l => Nat.ofDigitChars 10 l 0) h
  simpa [Nat.ofDigitChars_toDigits] using this

theorem Name.text_inj {x y : Name} (h : x.text = y.text) : x = y := by
  rcases x with ⟨k, m⟩
  rcases y with ⟨l, n⟩
  simp only [Name.text, toString_toList] at h
  cases k <;> cases l <;> simp [Kind.text, tx] at h <;> first | (simp [toDigits_inj h]) | skip

theorem Name.text_identifier (x : Name) : identifier x.text = true := by
  rcases x with ⟨k, n⟩
  have h : (Nat.toDigits 10 n).all (fun d => d.isAlphanum || d == '_') = true := by
    rw [List.all_eq_true]
    intro c hc
    simp [Char.isAlphanum, Nat.isDigit_of_mem_toDigits (by omega) (by omega) hc]
  simp only [Name.text, toString_toList]
  cases k
  · show identifier (['a', 'r', 'g', '_'] ++ _) = true
    simp only [List.cons_append, List.nil_append, identifier, List.all_cons, h]; decide
  · show identifier (['g', 'e', 't', '_'] ++ _) = true
    simp only [List.cons_append, List.nil_append, identifier, List.all_cons, h]; decide
  · show identifier (['r', 'e', 's', 'u', 'l', 't', '_'] ++ _) = true
    simp only [List.cons_append, List.nil_append, identifier, List.all_cons, h]; decide

theorem NamesIn.nodup_text {a b : Nat} {l : List Name} (h : NamesIn a b l) : (l.map Name.text).Nodup := by
  refine List.pairwise_map.2 (h.2.1.imp fun {x y} hxy heq => ?_)
  have := Name.text_inj heq
  subst this
  omega

/-! ### Parameters -/

theorem freshArgs_names (a k : Nat) (m : List (Nat × Name)) :
    (freshArgs ⟨a, m⟩ (List.range' a k)).1 = (List.range' a k).map (fun i => ⟨.arg, i⟩) ∧
    (freshArgs ⟨a, m⟩ (List.range' a k)).2.cnt = a + k := by
  induction k generalizing a m with
  | zero => simp [freshArgs]
  | succ k ih =>
    obtain ⟨h1, h2⟩ := ih (a + 1) ((a, ⟨.arg, a⟩) :: m)
    simp only [List.range'_succ, freshArgs, WS.fresh, List.map_cons]
    exact ⟨by rw [h1], by rw [h2]; omega⟩

/-- Binding the arguments to the identities from `a` on. -/
def bindIds (env : Env Nat V) (a : Nat) : List V → Env Nat V
  | [] => env
  | v :: vs => bindIds (env.set a v) (a + 1) vs

theorem bindIds_get (vs : List V) (env : Env Nat V) (a i : Nat) :
    bindIds env a vs i = if a ≤ i ∧ i < a + vs.length then vs[i - a]? else env i := by
  induction vs generalizing env a with
  | nil =>
    simp only [bindIds, List.length_nil]
    rw [if_neg (by omega)]
  | cons v vs ih =>
    simp only [bindIds, ih, List.length_cons]
    by_cases h : a = i
    · subst h
      rw [if_neg (by omega), if_pos (by omega)]
      simp [Env.set]
    · by_cases h2 : a + 1 ≤ i ∧ i < a + 1 + vs.length
      · rw [if_pos h2, if_pos (by omega)]
        rw [show i - a = (i - (a + 1)) + 1 by omega]
        simp
      · rw [if_neg h2, if_neg (by omega)]
        simp [Env.set, Ne.symm h]

theorem bindParams_sim : ∀ (vs : List V) (env : Env Nat V) (cenv : CEnv V) (a : Nat) (m : List (Nat × Name)),
    Bound ⟨a, m⟩ → Rel env ⟨a, m⟩ cenv →
    ∃ cenv', bindParams cenv (freshArgs ⟨a, m⟩ (List.range' a vs.length)).1 vs = some cenv' ∧
      Rel (bindIds env a vs) (freshArgs ⟨a, m⟩ (List.range' a vs.length)).2 cenv' ∧
      Bound (freshArgs ⟨a, m⟩ (List.range' a vs.length)).2
  | [], env, cenv, a, m, hb, hr => ⟨cenv, rfl, hr, hb⟩
  | v :: vs, env, cenv, a, m, hb, hr => by
    simp only [List.length_cons, List.range'_succ, freshArgs, WS.fresh, bindParams, bindIds]
    exact bindParams_sim vs (env.set a v) (cenv.set ⟨.arg, a⟩ v) (a + 1) ((a, ⟨.arg, a⟩) :: m)
      (fresh_bound hb a .arg) (hr.fresh hb a .arg v)

theorem freshArgs_bound : ∀ (k a : Nat) (m : List (Nat × Name)), Bound ⟨a, m⟩ →
    Bound (freshArgs ⟨a, m⟩ (List.range' a k)).2
  | 0, a, m, hb => hb
  | k + 1, a, m, hb => by
    simp only [List.range'_succ, freshArgs, WS.fresh]
    exact freshArgs_bound k (a + 1) _ (fresh_bound hb a .arg)

theorem argNames_in (a k : Nat) : NamesIn a (a + k) ((List.range' a k).map fun i => (⟨.arg, i⟩ : Name)) := by
  induction k generalizing a with
  | zero => exact NamesIn.nil (Nat.le_refl _)
  | succ k ih =>
    have := ih (a + 1)
    rw [show a + 1 + k = a + (k + 1) by omega] at this
    exact this.cons

/-- The conditions on a function. -/
def Fn.ok (f : Fn) (w : World σ V) : Prop := stmtsOk w f.body

theorem compile_tree (f : Fn) (t : Text) (h : compile f = some t) :
    ∃ fn cf, compileFn f = some fn ∧ astFunc fn = some cf ∧ t = cf.text := by
  simp only [compile] at h
  rcases hf : compileFn f with - | fn
  · simp [hf] at h
  simp only [hf, Option.bind_some, writeFunc_ast, Option.map_eq_some_iff] at h
  obtain ⟨cf, hcf, rfl⟩ := h
  exact ⟨fn, cf, rfl, hcf, rfl⟩

theorem tree_good (f : Fn) (fn : Func) (cf : CFunc) (hf : compileFn f = some fn) (hcf : astFunc fn = some cf) :
    cf.name = f.name ∧ cf.params.length = f.stores + 1 ∧
      ((cf.params ++ stmtsNames cf.body).map Name.text).Nodup ∧
      ∀ {σ V : Type} (w : World σ V) (s s' : σ) (args : List V), f.ok w → f.run w s args = some s' →
        cf.run w s args = some s' := by
  simp only [compileFn] at hf
  split at hf
  · simp at hf
  rcases hr : region (compileStmts (storeEnv f.stores) (.id f.stores) f.body) (f.stores + 1) with - | ⟨body, nx⟩
  · simp [hr] at hf
  simp only [hr, Option.some.injEq] at hf
  subst hf
  simp only [astFunc, List.range_eq_range'] at hcf
  rcases hb : astOps (freshArgs ⟨0, []⟩ (List.range' 0 (f.stores + 1))).2 body with - | ⟨b, ws'⟩
  · simp [hb] at hcf
  simp only [hb, Option.some.injEq] at hcf
  subst hcf
  obtain ⟨hn1, hn2⟩ := freshArgs_names 0 (f.stores + 1) []
  have hΓ : GammaOk (f.stores + 1) (storeEnv f.stores) := by
    intro x i hi
    simp only [storeEnv] at hi
    split at hi
    · simp only [Option.some.injEq] at hi; omega
    · simp at hi
  have hgood : ∀ {σ V : Type} (w : World σ V) (g : V), TermLast body ∧ wfOps (f.stores + 1) nx body ∧
      ∀ env s, f.ok w ∧ env f.stores = some g → (execOps w env s body).map Prod.snd =
        runStmts w g (src (storeEnv f.stores) env) s f.body := fun w g =>
    region_goodS (stmts_good f.body (storeEnv f.stores) (f.stores + 1) (by omega) hΓ id) (Nat.le_refl _) hr
  refine ⟨rfl, by rw [hn1]; simp, ?_, ?_⟩
  · let w : World Unit Unit := ⟨fun _ => (), fun _ => (), id, fun _ _ _ => ((), ()), fun _ _ _ => (),
      fun _ _ _ => (), fun _ _ _ _ => ((), ()), fun _ _ _ => ((), ()), fun _ _ _ _ => ((), ()), fun _ _ => true,
      fun _ _ => true⟩
    obtain ⟨-, h2, -⟩ := hgood w ()
    have hst := ops_static body (f.stores + 1) nx _ ws' b h2
      (freshArgs_bound (f.stores + 1) 0 [] (by intro p hp; simp at hp)) hb
    have hnm := hst.names
    rw [hn2] at hnm
    simp only [hn1]
    exact ((argNames_in 0 (f.stores + 1)).append hnm).nodup_text
  · intro σ V w s s' args hok hrun
    simp only [Fn.run] at hrun
    split at hrun
    · rename_i hlen
      rcases hg : args[f.stores]? with - | g
      · simp [hg] at hrun
      simp only [hg] at hrun
      obtain ⟨h1, h2, h3⟩ := hgood w g
      have hb0 : Bound ⟨0, []⟩ := by intro p hp; simp at hp
      obtain ⟨cenv, hc1, hc2, hc3⟩ := bindParams_sim args (fun _ => none) (fun _ => none) 0 [] hb0
        (by intro n v hnv; simp at hnv)
      rw [hlen] at hc1 hc2 hc3
      have henv : ∀ i, bindIds (fun _ => none) 0 args i = if i < f.stores + 1 then args[i]? else none := by
        intro i
        rw [bindIds_get]
        simp [hlen]
      have hx := h3 (bindIds (fun _ => none) 0 args) s ⟨hok, by rw [henv]; simp [hg]⟩
      have hsrc : src (storeEnv f.stores) (bindIds (fun _ => none) 0 args) =
          fun x => if x < f.stores then args[x]? else none := by
        funext x
        simp only [src, storeEnv]
        split
        · rename_i hlt
          rw [Option.bind_some, henv, if_pos (by omega)]
        · rfl
      rw [hsrc, hrun, Option.map_eq_some_iff] at hx
      obtain ⟨⟨env', s2⟩, hx1, hx2⟩ := hx
      simp only at hx2
      subst hx2
      obtain ⟨cenv', hs1, -⟩ := ops_sim w body (f.stores + 1) nx _ ws' b _ env' s s2 cenv h2 hc3
        (fun n hn => by rw [henv, if_neg (by omega)]) hc2 hb hx1
      simp only [CFunc.run, hc1]
      simp [hs1]
    · simp at hrun

theorem compile_good (f : Fn) (t : Text) (h : compile f = some t) :
    ∃ cf : CFunc, t = cf.text ∧ cf.name = f.name ∧ cf.params.length = f.stores + 1 ∧
      ((cf.params ++ stmtsNames cf.body).map Name.text).Nodup ∧
      ∀ {σ V : Type} (w : World σ V) (s s' : σ) (args : List V), f.ok w → f.run w s args = some s' →
        cf.run w s args = some s' := by
  obtain ⟨fn, cf, hf, hcf, rfl⟩ := compile_tree f t h
  exact ⟨cf, rfl, tree_good f fn cf hf hcf⟩

end Nbdl.Dsl
