import Verif.Nav.Spec
import Verif.Route.Props
/-!
# Properties of the navigation route (C73, C74)
-/
namespace Nbdl.Nav
open Route Route.Spec Nav.Spec

theorem encoding_sane : Sane encoding := by
  intro s h
  have hc : ∀ c ∈ s, c ≠ 0x20#8 := by
    intro c hc e
    subst e
    match s, h, hc with
    | [d], h, hc => simp [plain] at h; subst h; simp [slash] at hc
    | c :: d :: t, h, hc =>
      simp only [plain, Bool.and_eq_true, List.all_eq_true] at h
      have := h.2 _ hc
      simp [plainChar, slash] at this
  simp only [encoding, Option.some.injEq]
  clear h
  induction s with
  | nil => rfl
  | cons c s ih =>
    rw [List.flatMap_cons, if_neg (hc c (by simp)), ih (fun d hd => hc d (by simp [hd]))]
    rfl

/-- A plain path has no NUL in it. -/
theorem plain_upToNul {pre s : List Byte} (h : plain (pre ++ s) = true) : upToNul s = s := by
  have hc : ∀ c ∈ pre ++ s, c ≠ 0#8 := by
    intro c hc e
    subst e
    match pre ++ s, h, hc with
    | [d], h, hc => simp [plain] at h; subst h; simp [slash] at hc
    | c :: d :: t, h, hc =>
      simp only [plain, Bool.and_eq_true, List.all_eq_true] at h
      have := h.2 _ hc
      simp [plainChar, slash] at this
  have hs : ∀ c ∈ s, c ≠ 0#8 := fun c h => hc c (by simp [h])
  unfold upToNul
  clear h hc
  induction s with
  | nil => rfl
  | cons c s ih =>
    rw [List.takeWhile_cons, if_pos (by simpa using hs c (by simp)), ih (fun d hd => hs d (by simp [hd]))]

/-! ## C73 -/

/-- C73, partial: setting a route shows its text behind the prefix in the address bar, both stores hold
it and both are announced — for routes whose text is read back (C45 gives the exact condition) and is a plain
path, and browsers that leave such paths alone. -/
theorem set_route_partial (br : Browser) (hb : Sane br) (pg : Page) (hs : Small pg.routes)
    (hd : Distinct pg.routes) (st : St) (v : Value) (p : Pair) (hp : pg.routes[v.idx]? = some p)
    (ht : Typed p.members v.members)
    (hr : (p.name = [] ∧ v.members = []) ∨ (Segment p.name ∧ ∀ m ∈ v.members, Readable pg.W m))
    (hplain : plain (pg.uriPrefix ++ toString pg.routes v) = true) :
    step br pg st (.setRoute (some v))
      = .ok ({ path := pg.uriPrefix ++ toString pg.routes v, text := toString pg.routes v,
               value := some v }, [.text, .route]) := by
  have h := (round_trip_iff pg.W pg.routes hs hd v p hp ht).2 hr
  simp only [step, pushState, plain_upToNul hplain, hb _ hplain, Cpp.bind, receive, List.length_append]
  rw [if_neg (by omega)]
  simp only [List.drop_left, h]

/-- C73: setting the route that does not exist leaves the address bar alone. -/
theorem set_not_found (br : Browser) (pg : Page) (st st' : St) (ns : List Note)
    (h : step br pg st (.setRoute none) = .ok (st', ns)) : st'.path = st.path := by
  simp only [step, receive] at h
  split at h
  · cases h
  · split at h
    · cases h
    · cases h; rfl

def samplePage : Page := ⟨64, exMap, ascii "/app"⟩

example : step encoding samplePage ⟨ascii "/app", [], none⟩ (.setRoute (some ⟨3, [.int 42, .str (ascii "world")]⟩))
    = .ok (⟨ascii "/app/baz/42/world", ascii "/baz/42/world", some ⟨3, [.int 42, .str (ascii "world")]⟩⟩,
        [.text, .route]) := by decide +kernel
example : plain (samplePage.uriPrefix ++ toString samplePage.routes ⟨3, [.int 42, .str (ascii "world")]⟩) = true := by
  decide +kernel

/-- C73 fails for strings with a character that browsers encode: after setting the route of "a b" the
store holds the route of "a%20b". -/
theorem set_route_encoded_violated :
    step encoding samplePage ⟨ascii "/app", [], none⟩ (.setRoute (some ⟨2, [.str (ascii "a b")]⟩))
      = .ok (⟨ascii "/app/bar/a%20b", ascii "/bar/a%20b", some ⟨2, [.str (ascii "a%20b")]⟩⟩, [.text, .route])
    ∧ ∀ m ∈ ([.str (ascii "a b")] : List PVal), Readable 64 m := by
  refine ⟨by decide +kernel, ?_⟩
  intro m hm
  simp only [List.mem_singleton] at hm
  subst hm
  simp only [Readable, Segment]
  decide

/-- C73 fails for strings with a NUL: after setting the route of "a", NUL, "b" the address bar and the stores show the
route of "a". -/
theorem set_route_nul_violated :
    step encoding samplePage ⟨ascii "/app", [], none⟩ (.setRoute (some ⟨2, [.str [0x61#8, 0x00#8, 0x62#8]]⟩))
      = .ok (⟨ascii "/app/bar/a", ascii "/bar/a", some ⟨2, [.str (ascii "a")]⟩⟩, [.text, .route])
    ∧ ∀ m ∈ ([.str [0x61#8, 0x00#8, 0x62#8]] : List PVal), Readable 64 m := by
  refine ⟨by decide +kernel, ?_⟩
  intro m hm
  simp only [List.mem_singleton] at hm
  subst hm
  simp only [Readable, Segment]
  decide

/-! ## C74 -/

/-- The stores show the address bar. -/
def Mirrors (pg : Page) (st : St) : Prop :=
  pg.uriPrefix.length ≤ st.path.length ∧ st.text = st.path.drop pg.uriPrefix.length
    ∧ fromString pg.W pg.routes st.text = .ok st.value

theorem receive_mirrors (pg : Page) (st st' : St) (ns : List Note) (h : receive pg st = .ok (st', ns)) :
    Mirrors pg st' := by
  simp only [receive] at h
  split at h
  · cases h
  · next hl =>
    split at h
    · cases h
    · next v hv => cases h; exact ⟨by simpa using hl, rfl, hv⟩

/-- C74, partial: whatever routes the user visits and the program sets, once the page is loaded the
stores show the address bar — as long as the program does not set the text itself. -/
theorem mirrors_partial (br : Browser) (pg : Page) (path : List Byte) (st0 : St) (n0 : List Note)
    (hl : load pg path = .ok (st0, n0)) (es : List Ev) (ht : ∀ s, .setText s ∉ es) (st : St) (ns : List Note)
    (h : exec br pg st0 es = .ok (st, ns)) : Mirrors pg st := by
  have h0 := receive_mirrors pg _ _ _ hl
  clear hl
  induction es generalizing st0 ns with
  | nil => simp only [exec] at h; cases h; exact h0
  | cons e es ih =>
    simp only [exec] at h
    cases hs : step br pg st0 e with
    | ub => rw [hs] at h; cases h
    | ok r =>
      rw [hs] at h
      simp only [Cpp.bind] at h
      cases he : exec br pg r.1 es with
      | ub => rw [he] at h; cases h
      | ok r' =>
        rw [he] at h
        simp only [Cpp.map] at h
        cases h
        refine ih r.1 (fun s hm => ht s (by simp [hm])) _ he ?_
        cases e with
        | pop p => exact receive_mirrors pg _ _ _ hs
        | setText s => exact absurd (by simp) (ht s)
        | setRoute v =>
          cases v with
          | none => exact receive_mirrors pg _ _ _ hs
          | some v =>
            simp only [step] at hs
            cases hp : pushState br pg st0 (toString pg.routes v) with
            | ub => rw [hp] at hs; cases hs
            | ok s' => rw [hp] at hs; exact receive_mirrors pg _ _ _ hs

/-- C74: in any case the two stores show the same route. -/
theorem stores_agree (br : Browser) (pg : Page) (path : List Byte) (st0 : St) (n0 : List Note)
    (hl : load pg path = .ok (st0, n0)) (es : List Ev) (st : St) (ns : List Note)
    (h : exec br pg st0 es = .ok (st, ns)) : fromString pg.W pg.routes st.text = .ok st.value := by
  have h0 := (receive_mirrors pg _ _ _ hl).2.2
  clear hl
  induction es generalizing st0 ns with
  | nil => simp only [exec] at h; cases h; exact h0
  | cons e es ih =>
    simp only [exec] at h
    cases hs : step br pg st0 e with
    | ub => rw [hs] at h; cases h
    | ok r =>
      rw [hs] at h
      simp only [Cpp.bind] at h
      cases he : exec br pg r.1 es with
      | ub => rw [he] at h; cases h
      | ok r' =>
        rw [he] at h
        simp only [Cpp.map] at h
        cases h
        refine ih r.1 _ he ?_
        cases e with
        | pop p => exact (receive_mirrors pg _ _ _ hs).2.2
        | setText s =>
          simp only [step, pushState] at hs
          cases hp : br.resolve (pg.uriPrefix ++ upToNul s) with
          | none => rw [hp] at hs; cases hs
          | some q => rw [hp] at hs; simp only [Cpp.map] at hs; cases hs; exact h0
        | setRoute v =>
          cases v with
          | none => exact (receive_mirrors pg _ _ _ hs).2.2
          | some v =>
            simp only [step] at hs
            cases hp : pushState br pg st0 (toString pg.routes v) with
            | ub => rw [hp] at hs; cases hs
            | ok s' => rw [hp] at hs; exact (receive_mirrors pg _ _ _ hs).2.2

/-- The announcements expected of an event: the text and the route, except for a text set by the
program, of which nobody is told (see below). -/
def announced : Ev → List Note
  | .setText _ => []
  | .pop _ | .setRoute _ => [.text, .route]

theorem receive_notes (pg : Page) (st st' : St) (ns : List Note) (h : receive pg st = .ok (st', ns)) :
    ns = [.text, .route] := by
  simp only [receive] at h
  split at h
  · cases h
  · split at h
    · cases h
    · cases h; rfl

/-- C73, C74: in every history, exactly the announcements of its events are made, in order. -/
theorem all_announced (br : Browser) (pg : Page) (es : List Ev) (st st' : St) (ns : List Note)
    (h : exec br pg st es = .ok (st', ns)) : ns = es.flatMap announced := by
  induction es generalizing st ns with
  | nil => simp only [exec] at h; cases h; rfl
  | cons e es ih =>
    simp only [exec] at h
    cases hs : step br pg st e with
    | ub => rw [hs] at h; cases h
    | ok r =>
      rw [hs] at h
      simp only [Cpp.bind] at h
      cases he : exec br pg r.1 es with
      | ub => rw [he] at h; cases h
      | ok r' =>
        rw [he] at h
        simp only [Cpp.map] at h
        cases h
        rw [List.flatMap_cons, ← ih r.1 r'.2 he]
        congr 1
        cases e with
        | pop p => exact receive_notes pg _ _ _ hs
        | setText s =>
          simp only [step] at hs
          cases hp : pushState br pg st s with
          | ub => rw [hp] at hs; cases hs
          | ok s' => rw [hp] at hs; cases hs; rfl
        | setRoute v =>
          cases v with
          | none => exact receive_notes pg _ _ _ hs
          | some v =>
            simp only [step] at hs
            cases hp : pushState br pg st (toString pg.routes v) with
            | ub => rw [hp] at hs; cases hs
            | ok s' => rw [hp] at hs; exact receive_notes pg _ _ _ hs

example : ∃ st0 n0 st ns, load samplePage (ascii "/app/") = .ok (st0, n0)
    ∧ exec encoding samplePage st0 [.setRoute (some ⟨1, [.int 7]⟩), .pop (ascii "/app/bar/x"), .setRoute none]
      = .ok (st, ns) ∧ st.value = some ⟨2, [.str (ascii "x")]⟩ ∧ ns.length = 6 :=
  ⟨_, _, _, _, by rfl, by rfl, by decide +kernel, by decide +kernel⟩

/-- C74 fails: a text set by the program changes the address bar only; the stores keep the old route and
nobody is told. -/
theorem set_text_stale_violated (br : Browser) (hb : Sane br) (pg : Page) (st : St) (s : List Byte)
    (hp : plain (pg.uriPrefix ++ s) = true) :
    step br pg st (.setText s) = .ok ({ st with path := pg.uriPrefix ++ s }, []) := by
  simp [step, pushState, plain_upToNul hp, hb _ hp, Cpp.map]

example : plain (samplePage.uriPrefix ++ ascii "/foo/3") = true := by decide

/-- C74 fails: a location shorter than the prefix, which the user can enter, is not handled. -/
theorem short_path_violated (br : Browser) (pg : Page) (st : St) (p : List Byte)
    (h : p.length < pg.uriPrefix.length) : step br pg st (.pop p) = .ub ∧ load pg p = .ub := by
  simp [step, load, receive, h]

example : (ascii "/").length < samplePage.uriPrefix.length := by decide

/-- C74 fails: a location outside the prefix is taken for one inside it. -/
theorem foreign_path_violated :
    load samplePage (ascii "/xyz/foo/3") = .ok (⟨ascii "/xyz/foo/3", ascii "/foo/3", some ⟨1, [.int 3]⟩⟩, [.text, .route]) := by
  decide +kernel

/-- … and there is no other failure: with at most nine members per route, an event fails only if the browser
refuses the address or shows one shorter than the prefix. -/
theorem step_fails_partial (br : Browser) (pg : Page) (hs : Small pg.routes) (st : St) (e : Ev)
    (h : step br pg st e = .ub) :
    (∃ s, br.resolve s = none)
    ∨ (∃ s p, br.resolve s = some p ∧ p.length < pg.uriPrefix.length)
    ∨ (∃ p, e = .pop p ∧ p.length < pg.uriPrefix.length)
    ∨ st.path.length < pg.uriPrefix.length := by
  have hrec : ∀ st, receive pg st = .ub → st.path.length < pg.uriPrefix.length := by
    intro st h
    simp only [receive] at h
    split at h
    · assumption
    · split at h
      · next hv => exact absurd hv (parse_safe pg.W pg.routes hs _)
      · cases h
  cases e with
  | pop p => exact .inr (.inr (.inl ⟨p, rfl, hrec _ h⟩))
  | setText s =>
    simp only [step, pushState] at h
    cases hp : br.resolve (pg.uriPrefix ++ upToNul s) with
    | none => exact .inl ⟨_, hp⟩
    | some q => rw [hp] at h; simp only [Cpp.map] at h; cases h
  | setRoute v =>
    cases v with
    | none => exact .inr (.inr (.inr (hrec _ h)))
    | some v =>
      simp only [step, pushState] at h
      cases hp : br.resolve (pg.uriPrefix ++ upToNul (toString pg.routes v)) with
      | none => exact .inl ⟨_, hp⟩
      | some q => rw [hp] at h; exact .inr (.inl ⟨_, _, hp, hrec _ h⟩)

end Nbdl.Nav
