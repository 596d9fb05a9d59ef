import Verif.Dsl.Front
/-!
# The operations of the front end do what the source says: expressions and statements
-/
namespace Nbdl.Dsl

variable {σ V : Type}

/-! ### Conditions on the source -/

mutual
/-- The strings in an expression mean themselves between quotes. -/
def Expr.strOk : Expr → Prop
  | .str s => unquote s = some s
  | .path _ keys => exprsStrOk keys
  | .visit callee args => callee.strOk ∧ exprsStrOk args
  | _ => True

/-- The same for some expressions. -/
def exprsStrOk : List Expr → Prop
  | [] => True
  | e :: es => e.strOk ∧ exprsStrOk es
end

/-- The clauses of a match do not compete: `else` is the last one, and no object has two of the types. -/
def typesOk (w : World σ V) : List Text → Prop
  | [] => True
  | t :: ts =>
    (t = [] → ts = []) ∧ (∀ u ∈ ts, u ≠ [] → ∀ v, ¬ (w.is v t = true ∧ w.is v u = true)) ∧ typesOk w ts

/-- The type of a clause. -/
def Clause.type : Clause → Text
  | .mk t _ _ => t

mutual
/-- Both conditions, throughout a statement. -/
def Stmt.ok (w : World σ V) : Stmt → Prop
  | .call args => exprsStrOk args
  | .visit callee args => callee.strOk ∧ exprsStrOk args
  | .matchPath path clauses => path.strOk ∧ typesOk w (clauses.map Clause.type) ∧ clausesOk w clauses
  | .matchIf cond thn els => cond.strOk ∧ stmtsOk w thn ∧ stmtsOk w els
  | .noop _ => True

/-- The same for statements. -/
def stmtsOk (w : World σ V) : List Stmt → Prop
  | [] => True
  | s :: ss => s.ok w ∧ stmtsOk w ss

/-- The same for the bodies of clauses. -/
def clausesOk (w : World σ V) : List Clause → Prop
  | [] => True
  | .mk _ _ body :: cs => stmtsOk w body ∧ clausesOk w cs
end

/-! ### Expressions -/

theorem constant_value (w : World σ V) {plus : Bool} {e : Expr} {v : Val}
    (hm : plus = true → calleeMember e = none) (h : constant plus e = some v) :
    v.plain ∧ (∀ n, v.under n) ∧ (e.strOk → ∀ env ρ s, (evalVal w env v).map (fun x => (s, x)) = evalExpr w ρ s e) := by
  cases e with
  | var x => simp [constant] at h
  | path r ks => simp [constant] at h
  | visit f as => simp [constant] at h
  | num i =>
    simp only [constant] at h
    split at h
    · simp only [Option.some.injEq] at h
      subst h
      exact ⟨trivial, fun _ => trivial, fun _ env ρ s => by simp [evalVal, evalExpr]⟩
    · simp at h
  | str t =>
    simp only [constant, Option.some.injEq] at h
    subst h
    exact ⟨trivial, fun _ => trivial, fun hs env ρ s => by
      simp only [Expr.strOk] at hs
      simp [evalVal, evalExpr, hs]⟩
  | sym t =>
    rcases t with - | ⟨ch, t⟩
    · simp [constant] at h
    by_cases hd : ch = '.'
    · subst hd
      simp only [constant] at h
      cases plus
      · simp at h
      · simp [calleeMember, memberName] at hm
    · have hc : constant plus (.sym (ch :: t)) = some (.cexpr (ch :: t)) := by
        simp [constant, hd]
      rw [hc, Option.some.injEq] at h
      subst h
      exact ⟨trivial, fun _ => trivial, fun _ env ρ s => by simp [evalVal, evalExpr]⟩

theorem good_constant {w : World σ V} {P : Prop} {c : Nat} {f : V} {n : Nat} {plus : Bool} {e : Expr} (hs : P → e.strOk)
    (hm : plus = true → calleeMember e = none) {Γ : Env Nat Nat}
    {k : Val → M} {K : Env Nat V → σ → V → Option σ} (hk : GoodK w P c f n k K) :
    Good w P c f n (withConstant plus e k) fun env s =>
      (evalExpr w (src Γ env) s e).bind fun p => K env p.1 p.2 := by
  refine good_const fun v hv => ?_
  obtain ⟨h1, h2, h3⟩ := constant_value w hm hv
  refine (hk n v (Nat.le_refl _) (h2 n) h1).congr fun env s hcf => ?_
  rw [← h3 (hs hcf.1) env (src Γ env) s]
  rcases evalVal w env v with - | x <;> rfl

theorem good_nil {w : World σ V} {P : Prop} {c : Nat} {f : V} {n : Nat} {k : List Val → M}
    {K : Env Nat V → σ → List V → Option σ} (hk : GoodKs w P c f n k K) :
    Good w P c f n (k []) fun env s => K env s [] :=
  (hk n [] (Nat.le_refl _) (by simp)).congr fun env s _ => by simp [evalVals]

theorem memberName_cons (m : Text) : memberName ('.' :: m) = some m := rfl

theorem memberName_ne {ch : Char} (t : Text) (h : ch ≠ '.') : memberName (ch :: t) = none := by
  simp [memberName, h]

mutual
theorem resolve_good {w : World σ V} {P : Prop} {c : Nat} {f : V} {Γ : Env Nat Nat} :
    ∀ (e : Expr) (n : Nat) (plus : Bool) (k : Val → M) (K : Env Nat V → σ → V → Option σ), c < n → GammaOk n Γ →
      (P → e.strOk) → (plus = true → calleeMember e = none) → Local n K → GoodK w P c f n k K →
      Good w P c f n (resolve Γ plus e k) fun env s => (evalExpr w (src Γ env) s e).bind fun p => K env p.1 p.2
  | .var x, n, plus, k, K, hc, hΓ, hs, hm, hK, hk => by
    simp only [resolve]
    refine (good_var hΓ x hk).congr fun env s _ => ?_
    simp only [evalExpr]
    try dsimp only
    rcases src Γ env x with - | v <;> rfl
  | .sym t, n, plus, k, K, hc, hΓ, hs, hm, hK, hk => by
    simp only [resolve]
    exact good_constant hs hm hk
  | .num t, n, plus, k, K, hc, hΓ, hs, hm, hK, hk => by
    simp only [resolve]
    exact good_constant hs hm hk
  | .str t, n, plus, k, K, hc, hΓ, hs, hm, hK, hk => by
    simp only [resolve]
    exact good_constant hs hm hk
  | .path root [], n, plus, k, K, hc, hΓ, hs, hm, hK, hk => by
    simp only [resolve]
    refine (good_var hΓ root hk).congr fun env s _ => ?_
    simp only [evalExpr]
    try dsimp only
    rcases src Γ env root with - | v <;> rfl
  | .path root (key :: keys), n, plus, k, K, hc, hΓ, hs, hm, hK, hk => by
    simp only [resolve]
    simp only [Expr.strOk] at hs
    refine (good_var hΓ root (K := fun env s x => (evalPath w (src Γ env) s x (key :: keys)).bind fun p =>
      K env p.1 p.2) fun n' v hn hv hp => ?_).congr fun env s _ => ?_
    · exact pathNodes_good (key :: keys) n' v k K (by omega) (fun x i hx => Nat.lt_of_lt_of_le (hΓ x i hx) hn) hs
        hv hp (hK.mono hn) (hk.mono hn)
    · simp only [evalExpr, evalPath]
      try dsimp only
      rcases src Γ env root with - | v
      · rfl
      simp only [Option.bind_some]
  | .visit callee args, n, plus, k, K, hc, hΓ, hs, hm, hK, hk => by
    simp only [resolve]
    simp only [Expr.strOk] at hs
    refine good_close ?_
    try dsimp only
    rcases hcm : calleeMember callee with - | m
    · refine (resolve_good callee n true _ (fun env s x =>
        (evalArgs w (src Γ env) s args).bind fun q => K env (w.call q.1 x q.2).1 (w.call q.1 x q.2).2)
        hc hΓ (fun p => (hs p).1) (fun _ => hcm) (fun a b hab => ?_) fun n' v hn hv hp => ?_).congr fun env s _ => ?_
      · dsimp only; rw [src_agree hΓ hab, hK a b hab]
      · refine (resolveAll_good args n' _ (fun env s xs => (evalVal w env v).bind fun x =>
          K env (w.call s x xs).1 (w.call s x xs).2) (by omega)
          (fun x i hx => Nat.lt_of_lt_of_le (hΓ x i hx) hn) (fun p => (hs p).2) (fun a b hab => ?_)
          fun n'' vs hn' hvs => ?_).congr fun env s _ => ?_
        · dsimp only; rw [evalVal_agree w hab v hv, hK.mono hn a b hab]
        · refine (good_visit (by omega) (below_mono hn' hv) hp hvs (hK.mono (by omega))
            (hk.mono (by omega))).congr fun env s _ => ?_
          try dsimp only
          rcases evalVal w env v with - | x
          · try dsimp only
            rcases evalVals w env vs with - | xs <;> rfl
          · try dsimp only
            rcases evalVals w env vs with - | xs <;> rfl
        · try dsimp only
          rcases evalVal w env v with - | x
          · try dsimp only
            rcases evalArgs w (src Γ env) s args with - | q <;> rfl
          · try dsimp only
            rcases evalArgs w (src Γ env) s args with - | q <;> rfl
      · simp only [evalExpr, hcm]
        try dsimp only
        rcases evalExpr w (src Γ env) s callee with - | ⟨s1, x⟩
        · rfl
        simp only [Option.bind_some]
        try dsimp only
        rcases evalArgs w (src Γ env) s1 args with - | ⟨s2, xs⟩ <;> rfl
    · have hce : callee = .sym ('.' :: m) := by
        cases callee with
        | sym t =>
          simp only [calleeMember, memberName] at hcm
          split at hcm
          · simp only [Option.some.injEq] at hcm; rw [hcm]
          · simp at hcm
        | _ => simp [calleeMember] at hcm
      subst hce
      simp only [resolve]
      refine good_const fun v hv => ?_
      simp only [constant, if_true, Option.some.injEq] at hv
      subst hv
      refine (resolveAll_good args n _ (fun env s xs => match xs with
        | [] => none
        | x :: xs => K env (w.memberCall s x m xs).1 (w.memberCall s x m xs).2) hc hΓ (fun p => (hs p).2) (fun a b hab => ?_)
          fun n'' vs hn' hvs => ?_).congr fun env s _ => ?_
      · dsimp only; rw [hK a b hab]
      · exact good_mvisit (by omega) hvs (hK.mono (by omega)) (hk.mono (by omega))
      · simp only [evalExpr, calleeMember, memberName_cons]
        try dsimp only
        rcases evalArgs w (src Γ env) s args with - | ⟨s1, xs⟩
        · rfl
        try dsimp only
        rcases xs with - | ⟨x, xs⟩ <;> rfl

theorem resolveAll_good {w : World σ V} {P : Prop} {c : Nat} {f : V} {Γ : Env Nat Nat} :
    ∀ (es : List Expr) (n : Nat) (k : List Val → M) (K : Env Nat V → σ → List V → Option σ), c < n →
      GammaOk n Γ → (P → exprsStrOk es) → Local n K → GoodKs w P c f n k K →
      Good w P c f n (resolveAll Γ es k) fun env s => (evalArgs w (src Γ env) s es).bind fun p => K env p.1 p.2
  | [], n, k, K, hc, hΓ, hs, hK, hk => by
    simp only [resolveAll]
    exact (good_nil hk).congr fun env s _ => by simp [evalArgs]
  | e :: es, n, k, K, hc, hΓ, hs, hK, hk => by
    simp only [resolveAll]
    simp only [exprsStrOk] at hs
    refine (resolve_good e n false _ (fun env s x => (evalArgs w (src Γ env) s es).bind fun q =>
      K env q.1 (x :: q.2)) hc hΓ (fun p => (hs p).1) (by simp) (fun a b hab => ?_) fun n' v hn hv hp => ?_).congr
      fun env s _ => ?_
    · dsimp only; rw [src_agree hΓ hab, hK a b hab]
    · refine (resolveAll_good es n' _ (fun env s xs => (evalVal w env v).bind fun x => K env s (x :: xs)) (by omega)
        (fun x i hx => Nat.lt_of_lt_of_le (hΓ x i hx) hn) (fun p => (hs p).2) (fun a b hab => ?_)
        fun n'' vs hn' hvs => ?_).congr fun env s _ => ?_
      · dsimp only; rw [evalVal_agree w hab v hv, hK.mono hn a b hab]
      · refine (hk n'' (v :: vs) (by omega) ?_).congr fun env s _ => ?_
        · intro u hu
          try dsimp only
          rcases List.mem_cons.1 hu with rfl | hu
          · exact below_mono hn' hv
          · exact hvs u hu
        · simp only [evalVals]
          try dsimp only
          rcases evalVal w env v with - | x
          · try dsimp only
            rcases evalVals w env vs with - | xs <;> rfl
          · try dsimp only
            rcases evalVals w env vs with - | xs <;> rfl
      · try dsimp only
        rcases evalVal w env v with - | x
        · try dsimp only
          rcases evalArgs w (src Γ env) s es with - | q <;> rfl
        · try dsimp only
          rcases evalArgs w (src Γ env) s es with - | q <;> rfl
    · simp only [evalArgs]
      try dsimp only
      rcases evalExpr w (src Γ env) s e with - | ⟨s1, x⟩
      · rfl
      simp only [Option.bind_some]
      try dsimp only
      rcases evalArgs w (src Γ env) s1 es with - | ⟨s2, xs⟩ <;> rfl

theorem pathNodes_good {w : World σ V} {P : Prop} {c : Nat} {f : V} {Γ : Env Nat Nat} :
    ∀ (keys : List Expr) (n : Nat) (store : Val) (k : Val → M) (K : Env Nat V → σ → V → Option σ), c < n →
      GammaOk n Γ → (P → exprsStrOk keys) → store.under n → store.plain → Local n K → GoodK w P c f n k K →
      Good w P c f n (pathNodes Γ store keys k) fun env s =>
        (evalVal w env store).bind fun x => (evalPath w (src Γ env) s x keys).bind fun p => K env p.1 p.2
  | [], n, store, k, K, hc, hΓ, hs, hst, hsp, hK, hk => by
    simp only [pathNodes]
    exact (good_matchKey hc hK hk).congr fun env s _ => by
      simp [evalKey, evalPath]
  | key :: keys, n, store, k, K, hc, hΓ, hs, hst, hsp, hK, hk => by
    simp only [pathNodes]
    simp only [exprsStrOk] at hs
    refine (pathNode_good key n store _ (fun env s x => (evalPath w (src Γ env) s x keys).bind fun p =>
      K env p.1 p.2) hc hΓ (fun p => (hs p).1) hst hsp (fun a b hab => ?_) fun n' v hn hv hp => ?_).congr fun env s _ => ?_
    · dsimp only; rw [src_agree hΓ hab, hK a b hab]
    · exact pathNodes_good keys n' v k K (by omega) (fun x i hx => Nat.lt_of_lt_of_le (hΓ x i hx) hn) (fun p => (hs p).2) hv hp
        (hK.mono hn) (hk.mono hn)
    · simp only [evalPath]
      try dsimp only
      rcases evalVal w env store with - | x
      · rfl
      simp only [Option.bind_some]
      try dsimp only
      rcases evalNode w (src Γ env) s x key with - | ⟨s1, y⟩ <;> rfl

theorem pathNode_good {w : World σ V} {P : Prop} {c : Nat} {f : V} {Γ : Env Nat Nat} :
    ∀ (key : Expr) (n : Nat) (store : Val) (k : Val → M) (K : Env Nat V → σ → V → Option σ), c < n →
      GammaOk n Γ → (P → key.strOk) → store.under n → store.plain → Local n K → GoodK w P c f n k K →
      Good w P c f n (pathNode Γ store key k) fun env s =>
        (evalVal w env store).bind fun x => (evalNode w (src Γ env) s x key).bind fun p => K env p.1 p.2
  | .sym t, n, store, k, K, hc, hΓ, hs, hst, hsp, hK, hk => by
    simp only [pathNode]
    refine good_close (good_const fun v hv => ?_)
    try dsimp only
    rcases t with - | ⟨ch, t⟩
    · simp [constant] at hv
    by_cases hd : ch = '.'
    · subst hd
      simp only [constant, if_true, Option.some.injEq] at hv
      subst hv
      refine (good_matchKey (K := fun env s x => K env s (w.member s x t)) hc (fun a b hab => ?_)
        fun n' v hn hv hp => ?_).congr fun env s _ => ?_
      · dsimp only; rw [hK a b hab]
      · exact good_get (by omega) hv (hK.mono hn) (hk.mono hn)
      · try dsimp only
        rcases evalVal w env store with - | x
        · rfl
        simp [evalNode, memberName_cons, evalKey]
    · have hcst : constant true (.sym (ch :: t)) = some (.cexpr (ch :: t)) := by
        simp [constant, hd]
      rw [hcst, Option.some.injEq] at hv
      subst hv
      refine (good_matchKey hc hK hk).congr fun env s _ => ?_
      try dsimp only
      rcases evalVal w env store with - | x
      · rfl
      simp [evalNode, memberName_ne t hd, evalKey, evalVal]
  | .num i, n, store, k, K, hc, hΓ, hs, hst, hsp, hK, hk => by
    simp only [pathNode]
    refine good_close (good_const fun v hv => ?_)
    simp only [constant] at hv
    split at hv
    · simp only [Option.some.injEq] at hv
      subst hv
      refine (good_matchKey hc hK hk).congr fun env s _ => ?_
      try dsimp only
      rcases evalVal w env store with - | x
      · rfl
      simp [evalNode, evalKey, evalVal]
    · simp at hv
  | .str t, n, store, k, K, hc, hΓ, hs, hst, hsp, hK, hk => by
    simp only [pathNode]
    refine good_close (good_const fun v hv => ?_)
    simp only [constant, Option.some.injEq] at hv
    subst hv
    simp only [Expr.strOk] at hs
    refine (good_matchKey hc hK hk).congr fun env s hcf => ?_
    try dsimp only
    rcases evalVal w env store with - | x
    · rfl
    simp [evalNode, evalKey, evalVal, hs hcf.1]
  | .var y, n, store, k, K, hc, hΓ, hs, hst, hsp, hK, hk => by
    simp only [pathNode]
    refine good_close ?_
    refine (good_var hΓ y (K := fun env s z => (evalVal w env store).bind fun x =>
      K env (w.matchStore s x (some z)).1 (w.matchStore s x (some z)).2) fun n' v hn hv hp => ?_).congr
      fun env s _ => ?_
    · refine (good_matchKey (by omega) (hK.mono hn) (hk.mono hn)).congr fun env s _ => ?_
      try dsimp only
      rw [evalKey_plain w env hp]
      try dsimp only
      rcases evalVal w env store with - | x
      · try dsimp only
        rcases evalVal w env v with - | z <;> rfl
      · try dsimp only
        rcases evalVal w env v with - | z <;> rfl
    · simp only [evalNode]
      try dsimp only
      rcases evalVal w env store with - | x
      · try dsimp only
        rcases src Γ env y with - | z <;> rfl
      · try dsimp only
        rcases src Γ env y with - | z <;> rfl
  | .path y [], n, store, k, K, hc, hΓ, hs, hst, hsp, hK, hk => by
    simp only [pathNode]
    refine good_close ?_
    refine (good_var hΓ y (K := fun env s z => (evalVal w env store).bind fun x =>
      K env (w.matchStore s x (some z)).1 (w.matchStore s x (some z)).2) fun n' v hn hv hp => ?_).congr
      fun env s _ => ?_
    · refine good_close ((good_matchKey (by omega) (hK.mono hn) (hk.mono hn)).congr fun env s _ => ?_)
      try dsimp only
      rw [evalKey_plain w env hp]
      try dsimp only
      rcases evalVal w env store with - | x
      · try dsimp only
        rcases evalVal w env v with - | z <;> rfl
      · try dsimp only
        rcases evalVal w env v with - | z <;> rfl
    · simp only [evalNode]
      try dsimp only
      rcases evalVal w env store with - | x
      · try dsimp only
        rcases src Γ env y with - | z <;> rfl
      · try dsimp only
        rcases src Γ env y with - | z <;> rfl
  | .path root (key :: keys), n, store, k, K, hc, hΓ, hs, hst, hsp, hK, hk => by
    simp only [pathNode]
    simp only [Expr.strOk] at hs
    refine good_close ?_
    refine (good_var hΓ root (K := fun env s r => (evalPath w (src Γ env) s r (key :: keys)).bind fun p =>
      (evalVal w env store).bind fun x =>
        K env (w.matchStore p.1 x (some p.2)).1 (w.matchStore p.1 x (some p.2)).2)
      fun n' v hn hv hp => ?_).congr fun env s _ => ?_
    · refine pathNodes_good (key :: keys) n' v _ (fun env s z => (evalVal w env store).bind fun x =>
        K env (w.matchStore s x (some z)).1 (w.matchStore s x (some z)).2) (by omega)
        (fun x i hx => Nat.lt_of_lt_of_le (hΓ x i hx) hn) hs hv hp (fun a b hab => ?_)
        fun n'' u hn' hu hup => ?_
      · dsimp only; rw [evalVal_agree w hab store (below_mono hn hst), hK.mono hn a b hab]
      · refine good_close ((good_matchKey (by omega) (hK.mono (by omega)) (hk.mono (by omega))).congr
          fun env s _ => ?_)
        try dsimp only
        rw [evalKey_plain w env hup]
        try dsimp only
        rcases evalVal w env store with - | x
        · try dsimp only
          rcases evalVal w env u with - | z <;> rfl
        · try dsimp only
          rcases evalVal w env u with - | z <;> rfl
    · simp only [evalNode, evalPath]
      try dsimp only
      rcases src Γ env root with - | r
      · try dsimp only
        rcases evalVal w env store with - | x <;> rfl
      simp only [Option.bind_some]
      try dsimp only
      rcases evalNode w (src Γ env) s r key with - | ⟨s1, y⟩
      · try dsimp only
        rcases evalVal w env store with - | x <;> rfl
      simp only
      try dsimp only
      rcases evalPath w (src Γ env) s1 y keys with - | ⟨s2, z⟩
      · try dsimp only
        rcases evalVal w env store with - | x <;> rfl
      · try dsimp only
        rcases evalVal w env store with - | x <;> rfl
  | .visit callee args, n, store, k, K, hc, hΓ, hs, hst, hsp, hK, hk => by
    simp only [pathNode]
    exact good_fail
end

end Nbdl.Dsl
