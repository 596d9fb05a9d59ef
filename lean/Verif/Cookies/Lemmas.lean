import Verif.Cookies.Spec
/-! Helper lemmas about rendered cookies. -/
namespace Nbdl.Cookies
open Spec (Cookie WF render firstValue afterNextValued afterNextValued_length visible)

/-- What follows a cookie in a rendered list. -/
def tailR (cs : List Cookie) : List Byte := if cs = [] then [] else semi :: space :: render cs

theorem render_cons (c : Cookie) (cs : List Cookie) : render (c :: cs) = c.render ++ tailR cs := by
  cases cs with
  | nil => simp [render, tailR]
  | cons d ds =>
    simp only [render, tailR, if_neg (List.cons_ne_nil d ds)]
    rw [List.append_assoc]; rfl

theorem render_some (n v : List Byte) : (Cookie.mk n (some v)).render = n ++ eqs :: v := by
  simp only [Cookie.render, List.append_assoc]; rfl

theorem render_none (n : List Byte) : (Cookie.mk n none).render = n := rfl

theorem not_space : ∀ b : Byte, b ∉ Spec.white → isSpace b = false := by decide +kernel

theorem wf_parts {n : List Byte} {v : Option (List Byte)} (h : WF ⟨n, v⟩) :
    n ≠ [] ∧ (∀ b ∈ n, b ≠ semi ∧ b ≠ eqs ∧ isSpace b = false)
      ∧ ∀ w, v = some w → ∀ b ∈ w, b ≠ semi := by
  exact ⟨h.1, fun b hb => ⟨(h.2.1 b hb).1, (h.2.1 b hb).2.1, not_space b (h.2.1 b hb).2.2⟩, h.2.2⟩

theorem render_ne_nil (c : Cookie) (h : WF c) (t : List Byte) : c.render ++ t ≠ [] := by
  obtain ⟨n, v⟩ := c
  have h1 : n ≠ [] := h.1
  cases v <;> simp [Cookie.render, h1]

theorem findSuffix_skip (c : Byte) (a b : List Byte) (h : ∀ x ∈ a, x ≠ c) :
    findSuffix c (a ++ b) = findSuffix c b := by
  induction a with
  | nil => rfl
  | cons x a ih =>
    have := h x (by simp)
    simp only [findSuffix, List.cons_append, List.dropWhile_cons]
    rw [if_pos (by simpa using this)]
    exact ih (fun y hy => h y (by simp [hy]))

theorem findSuffix_self (c : Byte) (l : List Byte) : findSuffix c (c :: l) = c :: l := by
  simp [findSuffix]

theorem findSuffix_tail (cs : List Cookie) : findSuffix semi (tailR cs) = tailR cs := by
  unfold tailR; split
  · rfl
  · exact findSuffix_self _ _

theorem takeWhile_stop (v t : List Byte) (hv : ∀ b ∈ v, b ≠ semi) (ht : t = [] ∨ t.head? = some semi) :
    (v ++ t).takeWhile (· != semi) = v := by
  induction v with
  | nil =>
    rcases ht with rfl | ht
    · rfl
    · cases t with
      | nil => rfl
      | cons x t => simp at ht; simp [ht]
  | cons x v ih =>
    have := hv x (by simp)
    rw [List.cons_append, List.takeWhile_cons, if_pos (by simpa using this),
      ih (fun b hb => hv b (by simp [hb]))]

theorem tail_head (cs : List Cookie) : tailR cs = [] ∨ (tailR cs).head? = some semi := by
  unfold tailR; split <;> simp

/-- A `name=` prefix test on a cookie with a value compares the names. -/
theorem prefix_value (n name r : List Byte) (hn : ∀ b ∈ n, b ≠ eqs) (hname : ∀ b ∈ name, b ≠ eqs) :
    (n ++ [eqs]).isPrefixOf (name ++ eqs :: r) = decide (name = n) := by
  induction n generalizing name with
  | nil =>
    cases name with
    | nil => simp [List.isPrefixOf]
    | cons b name => have := hname b (by simp); simp [List.isPrefixOf, Ne.symm this]
  | cons a n ih =>
    have ha := hn a (by simp)
    cases name with
    | nil => simp [List.isPrefixOf, ha]
    | cons b name =>
      simp only [List.cons_append, List.isPrefixOf]
      rw [ih _ (fun b hb => hn b (by simp [hb])) (fun b hb => hname b (by simp [hb]))]
      by_cases hab : a = b
      · subst hab; simp
      · simp [hab, Ne.symm hab]

/-- … and never succeeds on a cookie without one. -/
theorem prefix_novalue (n name t : List Byte) (hn : ∀ b ∈ n, b ≠ semi) (hname : ∀ b ∈ name, b ≠ eqs)
    (ht : t = [] ∨ t.head? = some semi) :
    (n ++ [eqs]).isPrefixOf (name ++ t) = false := by
  induction n generalizing name with
  | nil =>
    cases name with
    | nil =>
      rcases ht with rfl | ht
      · rfl
      · cases t with
        | nil => rfl
        | cons x t => simp at ht; subst ht; rfl
    | cons b name => have := hname b (by simp); simp [List.isPrefixOf, Ne.symm this]
  | cons a n ih =>
    cases name with
    | nil =>
      rcases ht with rfl | ht
      · rfl
      · cases t with
        | nil => rfl
        | cons x t =>
          simp at ht; subst ht
          have := hn a (by simp)
          simp [List.isPrefixOf, this]
    | cons b name =>
      simp only [List.cons_append, List.isPrefixOf]
      rw [ih _ (fun b hb => hn b (by simp [hb])) (fun b hb => hname b (by simp [hb]))]
      simp

/-! ### Auth token -/

def authName : List Byte := ascii "nbdl_auth"

theorem authPrefix_eq : authPrefix = authName ++ [eqs] := by decide
theorem authName_ok : (∀ b ∈ authName, b ≠ eqs) ∧ (∀ b ∈ authName, b ≠ semi) := by decide

theorem check_cookie (c : Cookie) (h : WF c) (t : List Byte) (ht : t = [] ∨ t.head? = some semi) :
    checkAuthCookie (c.render ++ t)
      = match c.value with
        | some v => if c.name = authName then v ++ t else findSuffix semi t
        | none => findSuffix semi t := by
  obtain ⟨n, v⟩ := c
  obtain ⟨-, h2, h3⟩ := wf_parts h
  unfold checkAuthCookie
  cases v with
  | none =>
    rw [render_none, authPrefix_eq, prefix_novalue _ _ _ authName_ok.2 (fun b hb => (h2 b hb).2.1) ht]
    simp only [Bool.false_eq_true, if_false]
    exact findSuffix_skip _ _ _ (fun b hb => (h2 b hb).1)
  | some v =>
    rw [render_some, List.append_assoc, List.cons_append, authPrefix_eq,
      prefix_value _ _ _ authName_ok.1 (fun b hb => (h2 b hb).2.1)]
    by_cases hn : n = authName
    · simp only [hn, decide_true, if_true]
      rw [show authName ++ eqs :: (v ++ t) = (authName ++ [eqs]) ++ (v ++ t) by simp,
        List.drop_left' rfl]
    · simp only [hn, decide_false, if_false, Bool.false_eq_true]
      rw [findSuffix_skip _ n _ (fun b hb => (h2 b hb).1)]
      rw [show eqs :: (v ++ t) = (eqs :: v) ++ t from rfl]
      refine findSuffix_skip _ _ _ (fun b hb => ?_)
      rcases List.mem_cons.1 hb with rfl | hb
      · decide
      · exact h3 v rfl b hb

theorem authLoop_cons (nul : Bool) (cur : List Byte) (hc : cur ≠ []) :
    authLoop nul cur = match checkAuthCookie cur with
      | [] => if nul then .ok (takeCookieValue []) else .ub
      | x :: r => if x = semi then
          if (x :: r).length > 2 then authLoop nul (r.drop 1) else .ok []
        else .ok (takeCookieValue (x :: r)) := by
  rw [authLoop, dif_neg hc]
  split <;> rename_i heq <;> rw [heq]

/-- Does this cookie carry a (non-empty) auth token? -/
def carries (c : Cookie) : Bool :=
  c.name = authName ∧ c.value.isSome ∧ c.value ≠ some []

theorem authLoop_render (nul : Bool) (cs : List Cookie) (h : ∀ c ∈ cs, WF c) :
    authLoop nul (render cs) = match cs.find? carries with
      | some c => .ok (c.value.getD [])
      | none => if cs = [] ∨ nul = true then .ok [] else .ub := by
  induction cs with
  | nil => rw [show render [] = [] from rfl, authLoop]; simp
  | cons c cs ih =>
    have hc := h c (by simp)
    have ih := ih (fun d hd => h d (by simp [hd]))
    -- moving past a cookie that carries nothing
    have pass : checkAuthCookie (render (c :: cs)) = tailR cs → carries c = false →
        authLoop nul (render (c :: cs)) = match (c :: cs).find? carries with
          | some c => .ok (c.value.getD [])
          | none => if c :: cs = [] ∨ nul = true then .ok [] else .ub := by
      intro e hcar
      rw [authLoop_cons nul _ (by rw [render_cons]; exact render_ne_nil c hc _), e,
        List.find?_cons_of_neg (by simp [hcar])]
      cases cs with
      | nil => simp [tailR, takeCookieValue]
      | cons d ds =>
        have hne : render (d :: ds) ≠ [] := by
          rw [render_cons]; exact render_ne_nil d (h d (by simp)) _
        have hl := List.length_pos_iff.2 hne
        simp only [tailR, if_neg (List.cons_ne_nil d ds), if_true]
        rw [if_pos (by simp only [List.length_cons]; omega)]
        rw [List.drop_succ_cons, List.drop_zero, ih]
        simp
    have hchk := check_cookie c hc (tailR cs) (tail_head cs)
    rw [← render_cons] at hchk
    cases hv : c.value with
    | none =>
      rw [hv] at hchk
      exact pass (by rw [hchk]; exact findSuffix_tail cs) (by simp [carries, hv])
    | some v =>
      rw [hv] at hchk
      simp only at hchk
      by_cases hn : c.name = authName
      · rw [if_pos hn] at hchk
        by_cases hve : v = []
        · subst hve
          exact pass (by simpa using hchk) (by simp [carries, hv])
        · rw [List.find?_cons_of_pos (by simp [carries, hv, hn, hve])]
          rw [authLoop_cons nul _ (by rw [render_cons]; exact render_ne_nil c hc _), hchk]
          have hvs : ∀ b ∈ v, b ≠ semi := hc.2.2 v hv
          cases v with
          | nil => exact absurd rfl hve
          | cons x v =>
            simp only [List.cons_append]
            rw [if_neg (hvs x (by simp))]
            rw [← List.cons_append, takeCookieValue, takeWhile_stop _ _ hvs (tail_head cs), hv]
            rfl
      · rw [if_neg hn] at hchk
        exact pass (by rw [hchk]; exact findSuffix_tail cs) (by simp [carries, hn])

/-! ### Session cookie -/

def sessName : List Byte := ascii "NBDL_SESS"

theorem sessPrefix_eq : sessPrefix = sessName ++ [eqs] := by decide
theorem sessName_ok : (∀ b ∈ sessName, b ≠ eqs) ∧ (∀ b ∈ sessName, b ≠ semi) := by decide

def sp (cs : List Cookie) : List Byte := if cs = [] then [] else space :: render cs

theorem skip_value (cs : List Cookie) (h : ∀ c ∈ cs, WF c) :
    skipPast (skipPast (render cs) eqs) semi = sp (afterNextValued cs) := by
  induction cs with
  | nil => rfl
  | cons c cs ih =>
    have hc := h c (by simp)
    obtain ⟨n, v⟩ := c
    obtain ⟨-, h2, h3⟩ := wf_parts hc
    rw [render_cons]
    cases v with
    | some v =>
      rw [render_some]
      have e1 : skipPast (n ++ eqs :: v ++ tailR cs) eqs = v ++ tailR cs := by
        unfold skipPast
        rw [List.append_assoc, findSuffix_skip _ _ _ (fun b hb => (h2 b hb).2.1), List.cons_append,
          findSuffix_self]
        rfl
      rw [e1]
      unfold skipPast
      rw [findSuffix_skip _ _ _ (h3 v rfl), findSuffix_tail]
      simp only [afterNextValued, Option.isSome_some, if_true]
      unfold tailR sp
      split <;> rfl
    | none =>
      simp only [afterNextValued, Option.isSome_none, Bool.false_eq_true, if_false]
      rw [← ih (fun d hd => h d (by simp [hd]))]
      congr 1
      unfold skipPast
      rw [render_none, findSuffix_skip _ _ _ (fun b hb => (h2 b hb).2.1)]
      unfold tailR
      split
      · rename_i hcs; subst hcs; rfl
      · rw [show semi :: space :: render cs = [semi, space] ++ render cs from rfl,
          findSuffix_skip _ _ _ (by decide)]

theorem trim_render (cs : List Cookie) (h : ∀ c ∈ cs, WF c) :
    removeLeadingWhitespace (render cs) = render cs
    ∧ removeLeadingWhitespace (sp cs) = render cs := by
  have h1 : removeLeadingWhitespace (render cs) = render cs := by
    cases cs with
    | nil => rfl
    | cons c cs =>
      have hc := h c (by simp)
      obtain ⟨n, v⟩ := c
      obtain ⟨h1, h2, -⟩ := hc
      simp only at h1 h2
      cases n with
      | nil => exact absurd rfl h1
      | cons b n =>
        have hb := not_space b (h2 b (by simp)).2.2
        rw [render_cons]
        have : ∃ r, (Cookie.mk (b :: n) v).render ++ tailR cs = b :: r := by
          cases v with
          | none => exact ⟨_, rfl⟩
          | some v => exact ⟨_, rfl⟩
        obtain ⟨r, hr⟩ := this
        rw [hr]
        unfold removeLeadingWhitespace
        rw [List.dropWhile_cons, if_neg (by simp [hb])]
  refine ⟨h1, ?_⟩
  unfold sp
  split
  · rename_i e; subst e; rfl
  · unfold removeLeadingWhitespace at *
    rw [List.dropWhile_cons, if_pos (by decide), h1]

theorem afterNextValued_subset (cs : List Cookie) : ∀ c ∈ afterNextValued cs, c ∈ cs := by
  induction cs with
  | nil => simp [afterNextValued]
  | cons c cs ih =>
    intro d hd
    unfold afterNextValued at hd
    split at hd
    · exact List.mem_cons_of_mem _ hd
    · exact List.mem_cons_of_mem _ (ih d hd)

/-- One round of the session parser on a rendered list (possibly after the space of `"; "`). -/
theorem session_round (x : List Byte) (c : Cookie) (cs : List Cookie) (h : ∀ d ∈ c :: cs, WF d)
    (hx : x = render (c :: cs) ∨ x = sp (c :: cs)) :
    getSessionCookie x = match c.value with
      | some v => if c.name = sessName then v else getSessionCookie (sp (afterNextValued (c :: cs)))
      | none => getSessionCookie (sp (afterNextValued (c :: cs))) := by
  have hc := h c (by simp)
  have hne : x ≠ [] := by
    have : render (c :: cs) ≠ [] := by rw [render_cons]; exact render_ne_nil c hc _
    rcases hx with rfl | rfl
    · exact this
    · simp [sp]
  have ht : removeLeadingWhitespace x = render (c :: cs) := by
    rcases hx with rfl | rfl
    · exact (trim_render _ h).1
    · exact (trim_render _ h).2
  rw [getSessionCookie, dif_neg hne]
  simp only [ht]
  rw [skip_value _ h]
  obtain ⟨n, v⟩ := c
  obtain ⟨-, h2, h3⟩ := wf_parts hc
  cases v with
  | none =>
    rw [render_cons, sessPrefix_eq, render_none]
    rw [prefix_novalue _ _ _ sessName_ok.2 (fun b hb => (h2 b hb).2.1) (tail_head cs)]
    simp
  | some v =>
    rw [render_cons, sessPrefix_eq, render_some]
    rw [List.append_assoc, List.cons_append, prefix_value _ _ _ sessName_ok.1 (fun b hb => (h2 b hb).2.1)]
    by_cases hn : n = sessName
    · simp only [hn, decide_true, if_true]
      unfold skipPast
      rw [findSuffix_skip _ _ _ sessName_ok.1, findSuffix_self, List.drop_succ_cons, List.drop_zero,
        takeWhile_stop _ _ (h3 v rfl) (tail_head cs)]
    · simp [hn]

theorem session_render (cs : List Cookie) (h : ∀ d ∈ cs, WF d) (x : List Byte)
    (hx : x = render cs ∨ x = sp cs) :
    getSessionCookie x = firstValue sessName (visible cs) := by
  induction hn : cs.length using Nat.strongRecOn generalizing cs x with
  | ind k ih =>
    cases cs with
    | nil =>
      have : x = [] := by rcases hx with rfl | rfl <;> rfl
      subst this
      rw [getSessionCookie, visible]; simp [firstValue]
    | cons c cs =>
      rw [session_round x c cs h hx, visible]
      have hl := afterNextValued_length (c :: cs)
      have hsub := afterNextValued_subset (c :: cs)
      have := ih _ (by simp only [List.length_cons] at hl hn; omega) (afterNextValued (c :: cs))
        (fun d hd => h d (hsub d hd)) _ (.inr rfl) rfl
      rw [this]
      cases hv : c.value with
      | none =>
        simp only [Option.isSome_none, Bool.false_eq_true, if_false]
        simp [afterNextValued, hv]
      | some v =>
        simp only [Option.isSome_some, if_true]
        have e : afterNextValued (c :: cs) = cs := by simp [afterNextValued, hv]
        rw [e]
        by_cases hnm : c.name = sessName
        · rw [if_pos hnm]
          simp [firstValue, hnm, hv]
        · rw [if_neg hnm]
          unfold firstValue
          rw [List.find?_cons_of_neg (by simp [hnm])]

theorem visible_all (cs : List Cookie) (h : ∀ c ∈ cs, c.value.isSome = true) : visible cs = cs := by
  induction cs with
  | nil => simp [visible]
  | cons c cs ih =>
    rw [visible, if_pos (h c (by simp)), ih (fun d hd => h d (by simp [hd]))]

end Nbdl.Cookies
