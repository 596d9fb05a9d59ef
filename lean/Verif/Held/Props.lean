import Verif.Held.Lemmas
/-!
# C141, C142: values held by a pipeline, and pipelines that are run again
-/
namespace Nbdl.Held
variable {V : Type}

/-- C141: whatever is in the pipeline and whenever its operations complete, what a step holds is there to the end, and
goes through the accesses made to it, one after the other, from the value it was given to what it is now. -/
theorem held_history (c : Config V) (v : V) (ds : List (Done V)) (s : St V) (h : run c v ds = .ok s) (i : Nat) (x : V)
    (hi : c.steps[i]? = some (.hold x)) : ∃ w, s.cells i = some w ∧ Chained x (touches i s.log) w :=
  (run_inv c v ds h).moves.1 i x (by simp [cells, hi])

/-- C141: each access is one that the step is there for: a function's, a `tap`'s, or that of an operation which has
completed. -/
theorem held_touched (c : Config V) (v : V) (ds : List (Done V)) (s : St V) (h : run c v ds = .ok s) :
    ∀ t ∈ s.log, Does c.steps ds t.who t.saw t.left :=
  (run_inv c v ds h).told

/-- C141: and it is the value of the nearest `hold` that is handed on. -/
theorem held_nearest (c : Config V) (v : V) (ds : List (Done V)) (s : St V) (h : run c v ds = .ok s) :
    ∀ t ∈ s.log, Nearest c t.cell t.who :=
  (run_near c v ds h).log

/-- C141: a pipeline all of whose operations are given what the pipeline holds can be completed in any way: no reference
is used whose value is gone. -/
theorem held_safe_partial (c : Config V) (hg : Good false c.steps) (hl : c.loop = true → Step.op ∈ c.steps) (v : V)
    (ds : List (Done V)) : ∃ s, run c v ds = .ok s := by
  obtain ⟨s, e, h⟩ := start_safe c hg hl v
  obtain ⟨s', e', _⟩ := settles_safe c hg hl ds h
  exact ⟨s', by rw [run, e]; exact e'⟩

/-- C141 fails for what is not held: an operation that was given what a function returned, and looks at it when it
completes, uses a value that is gone, whatever comes later. -/
theorem returned_gone_violated (f : V → V) (w : V) (rest : List (Step V)) (loop : Bool) (v : V) (g : V → V) (n : Next V)
    (ds : List (Done V)) :
    run ⟨.func f (fun _ => .fresh w) :: .op :: rest, loop⟩ v (⟨some g, n⟩ :: ds) = .ub := rfl

/-- C141: so do the arguments of `run_async` itself. -/
theorem argument_gone_violated (rest : List (Step V)) (loop : Bool) (v : V) (g : V → V) (n : Next V) (ds : List (Done V)) :
    run ⟨.op :: rest, loop⟩ v (⟨some g, n⟩ :: ds) = .ub := rfl

/-- C141: in a loop a held value gathers what each pass does to it. -/
theorem loop_gathers (x v : V) (fs : List (V → V)) :
    ∃ s, run ⟨[.hold x, .op], true⟩ v (fs.map fun f => ⟨some f, .same⟩) = .ok s ∧
      s.cells 0 = some (fs.foldl (fun a f => f a) x) := by
  have go : ∀ (fs : List (V → V)) (x : V) (m : Cells V) (log : List (Touch V)), m 0 = some x →
      ∃ s, settles ⟨[.hold x, .op], true⟩ (fs.map fun f => ⟨some f, .same⟩) ⟨m, some (1, some 0), log⟩ = .ok s ∧
        s.cells 0 = some (fs.foldl (fun a f => f a) x) := by
    intro fs
    induction fs with
    | nil => intro x m log h; exact ⟨_, rfl, h⟩
    | cons f fs ih =>
      intro x m log h
      have e : settle ⟨[.hold x, .op], true⟩ ⟨m, some (1, some 0), log⟩ ⟨some f, .same⟩ =
          .ok ⟨fun j => if j = 0 then some (f x) else m j, some (1, some 0), log ++ [⟨1, 0, x, f x⟩] ++ [] ++ []⟩ := by
        simp [settle, use, access, h, Cpp.map, Cpp.bind, pass, finish, Arg.kept]
      have k := ih (f x) (fun j => if j = 0 then some (f x) else m j) (log ++ [⟨1, 0, x, f x⟩] ++ [] ++ []) (by simp)
      rw [List.map_cons, settles, e]
      obtain ⟨s, hs, r⟩ := k
      refine ⟨s, ?_, r⟩
      have same : ∀ (ds : List (Done V)) (s : St V), settles ⟨[.hold x, .op], true⟩ ds s =
          settles ⟨[.hold (f x), .op], true⟩ ds s := by
        intro ds
        induction ds with
        | nil => intro s; rfl
        | cons d ds ihd =>
          intro s
          rw [settles, settles]
          have es : settle ⟨[.hold x, .op], true⟩ s d = settle ⟨[.hold (f x), .op], true⟩ s d := by
            unfold settle
            cases s.wait with
            | none => rfl
            | some p =>
              obtain ⟨i, a⟩ := p
              have hd : ∀ i, ∀ (m : Cells V) (a : Arg V), (pass (([.hold x, .op] : List (Step V)).drop (i + 1)) (i + 1) m a) =
                  pass (([.hold (f x), .op] : List (Step V)).drop (i + 1)) (i + 1) m a := by
                intro i m a
                cases i with
                | zero => rfl
                | succ i => cases i <;> rfl
              have hf : ∀ log, finish ⟨[.hold x, .op], true⟩ log = finish (V := V) ⟨[.hold (f x), .op], true⟩ log := by
                intro log
                funext r
                obtain ⟨m, o, t⟩ := r
                cases o <;> rfl
              simp only [hd, hf]
          rw [es]
          cases settle ⟨[.hold (f x), .op], true⟩ s d with
          | ub => rfl
          | ok s' => exact ihd s'
      rw [Cpp.bind, same]
      exact hs
  obtain ⟨s, hs, r⟩ := go fs x (cells [.hold x, .op]) [] rfl
  refine ⟨s, ?_, r⟩
  rw [run, start]
  exact hs

private theorem exec_apart (c : Config V) : ∀ (es : List (Ev V)) (rs out : List (St V)),
    exec c es rs = .ok out →
    out.length = rs.length + (given es).length ∧
    (∀ r s, rs[r]? = some s → ∃ t, out[r]? = some t ∧ settles c (doneBy r rs.length es) s = .ok t) ∧
    (∀ k v, (given es)[k]? = some v → ∃ t, out[rs.length + k]? = some t ∧
      run c v (doneBy (rs.length + k) rs.length es) = .ok t)
  | [], rs, out, h => by
    cases h
    exact ⟨by simp [given], fun r s e => ⟨s, e, rfl⟩, fun k v e => by simp [given] at e⟩
  | .start v :: es, rs, out, h => by
    rw [exec, step] at h
    cases e : start c v with
    | ub => rw [e] at h; cases h
    | ok s0 =>
      rw [e] at h
      obtain ⟨hl, ho, hn⟩ := exec_apart c es (rs ++ [s0]) out h
      have len : (rs ++ [s0]).length = rs.length + 1 := by simp
      rw [len] at ho hn
      refine ⟨by simp [given, hl]; omega, fun r s hr => ?_, fun k w hk => ?_⟩
      · rw [doneBy]
        exact ho r s (by rw [List.getElem?_append_left (by have := (List.getElem?_eq_some_iff.1 hr).1; omega)]; exact hr)
      · rw [doneBy]
        cases k with
        | zero =>
          have : w = v := by simpa [given] using hk.symm
          subst this
          obtain ⟨t, ht, hs⟩ := ho rs.length s0 (by simp)
          exact ⟨t, by simpa using ht, by rw [run, e]; exact hs⟩
        | succ k =>
          obtain ⟨t, ht, hs⟩ := hn k w (by simpa [given] using hk)
          have ee : rs.length + 1 + k = rs.length + (k + 1) := by omega
          rw [ee] at ht hs
          exact ⟨t, ht, hs⟩
  | .settle q d :: es, rs, out, h => by
    rw [exec, step] at h
    cases e : rs[q]? with
    | none =>
      rw [e] at h
      obtain ⟨hl, ho, hn⟩ := exec_apart c es rs out h
      have hq : ¬ q < rs.length := by simpa using e
      refine ⟨by simpa [given] using hl, fun r s hr => ?_, fun k w hk => ?_⟩
      · rw [doneBy, if_neg (by rintro ⟨rfl, h⟩; omega)]
        exact ho r s hr
      · rw [doneBy, if_neg (by omega)]
        exact hn k w (by simpa [given] using hk)
    | some s0 =>
      rw [e] at h
      have hlt := (List.getElem?_eq_some_iff.1 e).1
      cases e2 : settle c s0 d with
      | ub => simp only [e2] at h; cases h
      | ok s1 =>
        simp only [e2, Cpp.map, Cpp.bind] at h
        obtain ⟨hl, ho, hn⟩ := exec_apart c es (rs.set q s1) out h
        have len : (rs.set q s1).length = rs.length := by simp
        rw [len] at ho hn
        refine ⟨by simpa [given] using hl, fun r s hr => ?_, fun k w hk => ?_⟩
        · by_cases hq : q = r
          · subst hq
            rw [e] at hr
            cases hr
            obtain ⟨t, ht, hs⟩ := ho q s1 (by rw [List.getElem?_set_self hlt])
            exact ⟨t, ht, by rw [doneBy, if_pos ⟨rfl, hlt⟩, settles, e2]; exact hs⟩
          · obtain ⟨t, ht, hs⟩ := ho r s (by rw [List.getElem?_set_ne hq]; exact hr)
            exact ⟨t, ht, by rw [doneBy, if_neg (fun h => hq h.1)]; exact hs⟩
        · rw [doneBy, if_neg (by omega)]
          exact hn k w (by simpa [given] using hk)

/-- C142: a pipeline that is run several times, with all runs under way at the same time: each run ends up as if it was
the only one, with the completions of its own operations. -/
theorem runs_apart (c : Config V) (es : List (Ev V)) (out : List (St V)) (h : exec c es [] = .ok out) :
    out.length = (given es).length ∧
    ∀ k v, (given es)[k]? = some v → ∃ t, out[k]? = some t ∧ run c v (doneBy k 0 es) = .ok t := by
  have := exec_apart c es [] out h
  exact ⟨by simpa using this.1, by simpa using this.2.2⟩

/-- Does it have a `hold_lazy`? -/
private def noLazy {F V : Type} (p : List (Kept F V)) : Prop := ∀ k ∈ p, ∀ f, k ≠ .lazy f

private theorem join_plain {F V : Type} (h : How) : ∀ (p : List (Kept F V)), noLazy p → join h p = some (p, p)
  | [], _ => rfl
  | k :: ks, hn => by
    have ih := join_plain h ks fun x hx => hn x (List.mem_cons_of_mem _ hx)
    have : joinStep h k = some (k, k) := by
      cases k with
      | plain f => cases h <;> rfl
      | hold v => cases h <;> rfl
      | lazy f => exact absurd rfl (hn _ List.mem_cons_self f)
    rw [join, this, ih]

/-- C142: a pipeline in a variable without `hold_lazy` can be run as often as one likes, and each time it is the same one,
with the values it was made to hold. -/
theorem rerun_partial {F V : Type} (p : List (Kept F V)) (hn : ∀ k ∈ p, ∀ f, k ≠ .lazy f) :
    ∀ hs : List How, again hs p = some (hs.map fun _ => p)
  | [] => rfl
  | h :: hs => by
    rw [again, join_plain h p hn]
    simp only [rerun_partial p hn hs]
    rfl

private theorem join_lazy {F V : Type} (p : List (Kept F V)) (f : Option F) (hm : Kept.lazy f ∈ p) :
    join How.async p = none := by
  induction p with
  | nil => simp at hm
  | cons k ks ih =>
    rw [join]
    rcases List.mem_cons.1 hm with h | h
    · subst h; rfl
    · rw [ih h]
      cases joinStep How.async k <;> rfl

/-- C142 fails for pipelines with `hold_lazy`: one in a variable cannot be given to `run_async` at all, … -/
theorem lazy_not_run_violated {F V : Type} (p : List (Kept F V)) (f : Option F) (hm : Kept.lazy f ∈ p) (hs : List How) :
    again (.async :: hs) p = none := by
  rw [again, join_lazy p f hm]

private theorem join_sync {F V : Type} : ∀ (p : List (Kept F V)), ∃ l, join How.sync p = some (p, l) ∧
    l.length = p.length ∧ ∀ (i : Nat) (f : Option F), p[i]? = some (.lazy f) → l[i]? = some (.lazy none)
  | [] => ⟨[], rfl, rfl, by simp⟩
  | k :: ks => by
    obtain ⟨l, e, hl, h⟩ := join_sync ks
    have : ∃ k', joinStep How.sync k = some (k, k') ∧ ∀ f, k = .lazy f → k' = .lazy none := by
      cases k with
      | plain f => exact ⟨_, rfl, fun _ e => by cases e⟩
      | hold v => exact ⟨_, rfl, fun _ e => by cases e⟩
      | lazy f => exact ⟨_, rfl, fun _ _ => rfl⟩
    obtain ⟨k', ek, hk⟩ := this
    refine ⟨k' :: l, by rw [join, ek, e], by simp [hl], fun i f hi => ?_⟩
    cases i with
    | zero => simp at hi; simp [hk f hi]
    | succ i => simp at hi; simpa using h i f hi

/-- C142: … and one given to `run_sync` a second time calls a function that has been moved from. -/
theorem lazy_moved_violated {F V : Type} (p : List (Kept F V)) (i : Nat) (f : F) (hi : p[i]? = some (.lazy (some f))) :
    ∃ q, again [.sync, .sync] p = some [p, q] ∧ q[i]? = some (.lazy none) := by
  obtain ⟨l, e, _, h⟩ := join_sync p
  obtain ⟨l2, e2, _, _⟩ := join_sync l
  exact ⟨l, by rw [again, e]; simp only [again, e2], h i _ hi⟩

/-! ## Cases -/

/-- Messages are gathered, as in `/repo/test/nbdl/websocket_api/client_endpoint.cpp` 99-128: a vector is held, an operation
refers to it and puts messages in; a function looks at it at the end. -/
def gather : Config (List Nat) := ⟨[.hold [], .op, .op, .tap id], false⟩

example : ¬ Good false gather.steps := by simp [gather, Good]

def gather' : Config (List Nat) := ⟨[.hold [], .tap (7 :: ·), .op, .tap (· ++ [9]), .hold [5], .op], true⟩

example : Good false gather'.steps ∧ (gather'.loop = true → Step.op ∈ gather'.steps) := by
  simp [gather', Good]

example : (run gather' [] [⟨some (1 :: ·), .same⟩, ⟨some (2 :: ·), .fresh [0]⟩, ⟨none, .same⟩]).map (fun s =>
    (s.cells 0, s.cells 4, touches 0 s.log)) =
    .ok (some [7, 1, 7, 9, 9], some [2, 5], [⟨1, 0, [], [7]⟩, ⟨2, 0, [7], [1, 7]⟩, ⟨3, 0, [1, 7], [1, 7, 9]⟩,
      ⟨1, 0, [1, 7, 9], [7, 1, 7, 9]⟩, ⟨3, 0, [7, 1, 7, 9], [7, 1, 7, 9, 9]⟩]) := by decide +kernel

/-- Two runs at the same time, each with a vector of its own. -/
example : (exec gather' [.start [], .start [], .settle 1 ⟨some (1 :: ·), .stop⟩, .settle 0 ⟨some (2 :: ·), .stop⟩] []).map
    (fun rs => rs.map fun s => s.cells 0) = .ok [some [2, 7], some [1, 7]] := by decide +kernel

example : again [.sync, .sync] ([.plain 1, .lazy (some 2), .hold 3] : List (Kept Nat Nat)) =
    some [[.plain 1, .lazy (some 2), .hold 3], [.plain 1, .lazy none, .hold 3]] := rfl

example : again [.sync, .async, .sync] ([.plain 1, .hold 3] : List (Kept Nat Nat)) =
    some [[.plain 1, .hold 3], [.plain 1, .hold 3], [.plain 1, .hold 3]] := rfl

end Nbdl.Held
