import Verif.JsPromise.Spec
/-!
# Properties of JavaScript promises (C96, C97)
-/
namespace Nbdl.JsPromise

private theorem pick_all {V} (vals : List V) :
    ∀ n, n ≤ vals.length → pick vals (argHandleIndices n) = .ok (vals.take n).reverse
  | 0, _ => by simp [argHandleIndices, pick]
  | n + 1, h => by
    have ih := pick_all vals n (by omega)
    have e : vals[n]? = some (vals[n]'(by omega)) := List.getElem?_eq_getElem (by omega)
    simp only [argHandleIndices, pick, e, ih, Cpp.map]
    rw [List.take_succ_eq_append_getElem (by omega), List.reverse_append]
    rfl

private theorem arguments_all {V} (vals : List V) :
    arguments vals vals.length = .ok (.resolve :: .reject :: (vals.reverse.map .value)) := by
  simp [arguments, pick_all vals vals.length (Nat.le_refl _), Cpp.map]

private theorem declare_skip {V} (args : List (Arg V)) (n : String) :
    ∀ (cs : List (String × Nat)) (e : Env V), (∀ k, (n, k) ∉ cs) → declare args cs e n = e n
  | [], e, _ => rfl
  | (m, k) :: cs, e, h => by
    rw [declare, declare_skip args n cs _ (fun k' hk => h k' (List.mem_cons_of_mem _ hk))]
    have : n ≠ m := fun hm => h k (by subst hm; exact List.mem_cons_self)
    simp [this]

private theorem declare_found {V} (args : List (Arg V)) (n : String) (x : Option (Arg V)) :
    ∀ (cs : List (String × Nat)) (e : Env V),
      (∀ k, (n, k) ∈ cs → args[k]? = x) → (∃ k, (n, k) ∈ cs) → declare args cs e n = some x
  | [], e, _, ⟨k, hk⟩ => by cases hk
  | (m, k) :: cs, e, h, hx => by
    rw [declare]
    by_cases hin : ∃ k', (n, k') ∈ cs
    · exact declare_found args n x cs _ (fun k' hk => h k' (List.mem_cons_of_mem _ hk)) hin
    · rw [declare_skip args n cs _ (fun k' hk => hin ⟨k', hk⟩)]
      obtain ⟨k', hk'⟩ := hx
      rcases List.mem_cons.mp hk' with hk' | hk'
      · cases hk'; simp [h k List.mem_cons_self]
      · exact absurd ⟨k', hk'⟩ hin

private theorem initCaptures_mem (n : String) :
    ∀ (ns : List String) (k : Nat), (n, k) ∈ initCaptures ns →
      ∃ i, ns[i]? = some n ∧ k + i = ns.length + 1
  | [], k, h => by cases h
  | m :: ns, k, h => by
    rw [initCaptures] at h
    rcases List.mem_cons.mp h with h | h
    · cases h; exact ⟨0, by simp, by simp⟩
    · obtain ⟨i, hi, hk⟩ := initCaptures_mem n ns k h
      exact ⟨i + 1, by simpa using hi, by simp; omega⟩

private theorem initCaptures_has (n : String) :
    ∀ (ns : List String), n ∈ ns → ∃ k, (n, k) ∈ initCaptures ns
  | m :: ns, h => by
    rcases List.mem_cons.mp h with h | h
    · subst h; exact ⟨_, List.mem_cons_self⟩
    · obtain ⟨k, hk⟩ := initCaptures_has n ns h
      exact ⟨k, List.mem_cons_of_mem _ hk⟩

private theorem initCaptures_only (n : String) (ns : List String) (h : n ∉ ns) (k : Nat) :
    (n, k) ∉ initCaptures ns := fun hk =>
  let ⟨_, hi, _⟩ := initCaptures_mem n ns k hk
  h (List.mem_of_getElem? hi)

/-- C96: with one to eight captured variables, the JavaScript function is called with `resolve` and
`reject`, and each variable captured has, under its own name, the value of the C++ variable; no
other variable is declared. -/
theorem captured {V} (ρ : String → V) (ns : List String) (h₁ : ns ≠ []) (h₈ : ns.length ≤ 8) :
    ∃ c, withCapture ρ ns = some (.ok c) ∧ c.arg0 = some .resolve ∧ c.arg1 = some .reject ∧
      (∀ n ∈ ns, c.env n = some (some (.value (ρ n)))) ∧ ∀ n, n ∉ ns → c.env n = none := by
  have hl : 1 ≤ ns.length := by
    cases ns with
    | nil => exact absurd rfl h₁
    | cons => simp
  have ha : arguments (collect ρ ns) ns.length =
      .ok (.resolve :: .reject :: ((ns.map ρ).reverse.map .value)) := by
    have := arguments_all (ns.map ρ)
    simpa only [collect, List.length_map] using this
  refine ⟨⟨some .resolve, some .reject, declare (.resolve :: .reject :: ((ns.map ρ).reverse.map .value))
    (initCaptures ns) fun _ => none⟩, ?_, rfl, rfl, ?_, ?_⟩
  · simp only [withCapture, hl, h₈, and_self, if_true, ha, Cpp.map]
    rfl
  · intro n hn
    refine declare_found _ n _ _ _ ?_ (initCaptures_has n ns hn)
    intro k hk
    obtain ⟨i, hi, hk⟩ := initCaptures_mem n ns k hk
    have hlt : i < ns.length := (List.getElem?_eq_some_iff.mp hi).1
    obtain ⟨j, rfl⟩ : ∃ j, k = j + 2 := ⟨k - 2, by omega⟩
    simp only [List.getElem?_cons_succ, List.getElem?_map]
    rw [List.getElem?_reverse (by simp; omega)]
    have : (ns.map ρ).length - 1 - j = i := by simp; omega
    rw [this]
    simp [hi]
  · intro n hn
    exact declare_skip _ n _ _ (initCaptures_only n ns hn)

/-- C96: the C function gets the two callbacks and then the captured values in the order in which
they are named. -/
theorem c_func {V} (ρ : String → V) (ns : List String) (h₁ : ns ≠ []) (h₉ : ns.length ≤ 9) :
    cFunc ρ ns = some (.ok (.resolve :: .reject :: ns.map fun n => .value (ρ n))) := by
  have hl : 1 ≤ ns.length := by
    cases ns with
    | nil => exact absurd rfl h₁
    | cons => simp
  have ha := arguments_all (collectReverse ρ ns)
  have e : (collectReverse ρ ns).length = ns.length := by simp [collectReverse]
  rw [e] at ha
  simp only [cFunc, hl, h₉, and_self, if_true, ha]
  simp [collectReverse, Function.comp_def]

/-- Captures of a promise written in JavaScript: a value captured twice is the same. -/
example : (withCapture (fun n => n.length) ["a", "bcd", "ef", "a"]).map
    (fun c => c.map fun c => (c.env "bcd", c.env "ef", c.env "a", c.env "x")) =
    some (.ok (some (some (.value 3)), some (some (.value 2)), some (some (.value 1)), none)) :=
  rfl
example : cFunc (fun n => n.length) ["a", "bcd", "ef"] =
    some (.ok [.resolve, .reject, .value 1, .value 3, .value 2]) := by decide +kernel
/-- Nine captures are too many for JavaScript code. -/
example : withCapture (fun n => n.length) ["a", "b", "c", "d", "e", "f", "g", "h", "i"] = none :=
  rfl

/-! ## Lifetime -/

private theorem run_given {V} : ∀ (os : List (Op V)) (s : S V),
    (∀ i, i ∈ s.live ↔ i < s.runs) → s.live.length = s.runs → (∀ i, s.deleteMe i = none) →
    Given s.runs os →
    ∃ s', run os s = .ok s' ∧ s'.runs = s.runs + starts os ∧
      s'.live.length = s.runs + starts os ∧ (∀ i, i ∈ s'.live ↔ i < s'.runs) ∧
      s'.delivered = s.delivered ++ calls os
  | [], s, hl, hn, _, _ => ⟨s, rfl, rfl, hn, hl, by simp [calls]⟩
  | .start :: os, s, hl, hn, hd, hg => by
    obtain ⟨s', h, h₁, h₂, h₃, h₄⟩ := run_given os
      { runs := s.runs + 1, live := s.live ++ [s.runs],
        deleteMe := fun i => if i = s.runs then none else s.deleteMe i,
        delivered := s.delivered }
      (by intro i; simp [hl]; omega) (by simp [hn]) (by intro i; simp [hd]) hg
    refine ⟨s', h, ?_, ?_, h₃, h₄⟩ <;> simp only [starts] <;> simp_all <;> omega
  | .resolve i v :: os, s, hl, hn, hd, hg => by
    obtain ⟨s', h, h₁, h₂, h₃, h₄⟩ := run_given os
      { s with live := deletePair s.live (s.deleteMe i),
               delivered := s.delivered ++ [(i, true, v)] }
      (by simpa [hd, deletePair] using hl) (by simpa [hd, deletePair] using hn) hd hg.2
    refine ⟨s', ?_, h₁, h₂, h₃, by simp [h₄, calls]⟩
    have : i ∈ s.live := (hl i).mpr hg.1
    simp only [run, step, settle, this, if_true, Cpp.bind]
    exact h
  | .reject i v :: os, s, hl, hn, hd, hg => by
    obtain ⟨s', h, h₁, h₂, h₃, h₄⟩ := run_given os
      { s with live := deletePair s.live (s.deleteMe i),
               delivered := s.delivered ++ [(i, false, v)] }
      (by simpa [hd, deletePair] using hl) (by simpa [hd, deletePair] using hn) hd hg.2
    refine ⟨s', ?_, h₁, h₂, h₃, by simp [h₄, calls]⟩
    have : i ∈ s.live := (hl i).mpr hg.1
    simp only [run, step, settle, this, if_true, Cpp.bind]
    exact h

/-- C97, partial: for every history of runs and of calls of the callbacks they were given, nothing
which was deleted is used, and every call is delivered once to the pipeline of its own run, as a
result or as an error as called, with its value, in the order of the calls.  Missing: a run is
settled only once and its callbacks are released, see below. -/
theorem delivered_partial {V} (os : List (Op V)) (h : Given 0 os) :
    ∃ s, run os init = .ok s ∧ s.delivered = calls os := by
  obtain ⟨s, h, _, _, _, h₄⟩ := run_given os init (by simp [init]) rfl (by simp [init]) h
  exact ⟨s, h, by simpa [init] using h₄⟩

/-- C97 is violated: the callbacks of no run are ever released, not even of settled ones, whatever
happens. -/
theorem released_violated {V} (os : List (Op V)) (h : Given 0 os) :
    ∃ s, run os init = .ok s ∧ s.live.length = starts os ∧ ∀ i, i < starts os → i ∈ s.live := by
  obtain ⟨s, h, h₁, h₂, h₃, _⟩ := run_given os init (by simp [init]) rfl (by simp [init]) h
  refine ⟨s, h, by simpa [init] using h₂, fun i hi => (h₃ i).mpr ?_⟩
  simpa [h₁, init] using hi

/-- C97 is violated: JavaScript code that calls both of its callbacks settles the pipeline twice
(the second call is not ignored). -/
theorem settles_once_violated :
    ∃ (os : List (Op Nat)) (s : S Nat), Given 0 os ∧ run os init = .ok s ∧
      s.delivered = [(0, true, 1), (0, false, 2)] ∧ ¬ SettlesOnce s.delivered :=
  ⟨[.start, .resolve 0 1, .reject 0 2], _, by simp [Given], rfl, rfl, by simp [SettlesOnce, init]⟩

/-- Two runs, settled in the other order. -/
example : Given 0 ([.start, .start, .resolve 1 5, .reject 0 6] : List (Op Nat)) ∧
    Settled 1 ([.start, .start, .resolve 1 5, .reject 0 6] : List (Op Nat)) :=
  ⟨by simp [Given], true, 5, by simp [calls]⟩

end Nbdl.JsPromise
