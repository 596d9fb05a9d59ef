import Verif.Nav.Props
/-!
# When a route that was set is shown (C73), and when the stores show the address bar (C74)
-/
namespace Nbdl.Nav
open Route Route.Spec Nav.Spec

theorem exec_snoc (br : Browser) (pg : Page) (e : Ev) : ∀ (es : List Ev) (st0 st : St) (ns : List Note),
    exec br pg st0 (es ++ [e]) = .ok (st, ns) →
    ∃ st1 n1 n2, exec br pg st0 es = .ok (st1, n1) ∧ step br pg st1 e = .ok (st, n2)
  | [], st0, st, ns, h => by
    simp only [List.nil_append, exec] at h
    cases hs : step br pg st0 e with
    | ub => rw [hs] at h; cases h
    | ok r =>
      rw [hs] at h
      simp only [Cpp.bind, Cpp.map, Cpp.ok.injEq, Prod.mk.injEq] at h
      exact ⟨st0, [], r.2, rfl, by rw [hs, ← h.1]⟩
  | a :: es, st0, st, ns, h => by
    simp only [List.cons_append, exec] at h
    cases hs : step br pg st0 a with
    | ub => rw [hs] at h; cases h
    | ok r =>
      rw [hs] at h
      simp only [Cpp.bind] at h
      cases he : exec br pg r.1 (es ++ [e]) with
      | ub => rw [he] at h; cases h
      | ok r' =>
        rw [he] at h
        simp only [Cpp.map, Cpp.ok.injEq, Prod.mk.injEq] at h
        obtain ⟨st1, n1, n2, h1, h2⟩ := exec_snoc br pg e es r.1 r'.1 r'.2 he
        refine ⟨st1, r.2 ++ n1, n2, ?_, by rw [h2, h.1]⟩
        simp only [exec, hs, Cpp.bind, h1, Cpp.map]

/-- C74: whatever has happened before, after the user went back or forward and after the program set a
route the stores show the address bar; and after the program set a text they do exactly if this is the
text that the store shows already.  (The text is a plain path behind the prefix, and the browser leaves
such paths alone.) -/
theorem mirrors_exact (br : Browser) (hb : Sane br) (pg : Page) (path : List Byte) (st0 : St) (n0 : List Note)
    (hl : load pg path = .ok (st0, n0)) (es : List Ev) (e : Ev) (st : St) (ns : List Note)
    (h : exec br pg st0 (es ++ [e]) = .ok (st, ns)) (hp : ∀ s, e = .setText s → plain (pg.uriPrefix ++ s) = true) :
    Mirrors pg st ↔ ∀ s, e = .setText s → s = st.text := by
  obtain ⟨st1, n1, n2, h1, h2⟩ := exec_snoc br pg e es st0 st ns h
  have ha := stores_agree br pg path st0 n0 hl (es ++ [e]) st ns h
  cases e with
  | pop p => exact ⟨fun _ s hs => (by cases hs), fun _ => receive_mirrors pg _ _ _ h2⟩
  | setRoute v =>
    refine ⟨fun _ s hs => (by cases hs), fun _ => ?_⟩
    cases v with
    | none => exact receive_mirrors pg _ _ _ h2
    | some v =>
      simp only [step] at h2
      cases hq : pushState br pg st1 (toString pg.routes v) with
      | ub => rw [hq] at h2; cases h2
      | ok s' => rw [hq] at h2; exact receive_mirrors pg _ _ _ h2
  | setText s =>
    have hpl := hp s rfl
    rw [set_text_stale_violated br hb pg st1 s hpl] at h2
    simp only [Cpp.ok.injEq, Prod.mk.injEq] at h2
    have hpath : st.path = pg.uriPrefix ++ s := by rw [← h2.1]
    simp only [Mirrors, hpath, List.drop_left, List.length_append, Ev.setText.injEq]
    constructor
    · rintro ⟨-, h3, -⟩ s' rfl
      exact h3.symm
    · intro h3
      exact ⟨by omega, (h3 s rfl).symm, ha⟩

example : exec encoding samplePage ⟨ascii "/app/foo/3", ascii "/foo/3", some ⟨1, [.int 3]⟩⟩ [.setText (ascii "/foo/3")] =
      .ok (⟨ascii "/app/foo/3", ascii "/foo/3", some ⟨1, [.int 3]⟩⟩, [])
    ∧ exec encoding samplePage ⟨ascii "/app/foo/3", ascii "/foo/3", some ⟨1, [.int 3]⟩⟩ [.setText (ascii "/foo/4")] =
      .ok (⟨ascii "/app/foo/4", ascii "/foo/3", some ⟨1, [.int 3]⟩⟩, [])
    ∧ plain (samplePage.uriPrefix ++ ascii "/foo/4") = true := by decide +kernel

/-- C73: in any browser, setting a route leaves the address bar, the text and the route as they were meant exactly
if the browser takes the text (up to its first NUL) behind the prefix as the text in full, and the text is read back as the
route. -/
theorem set_route_exact (br : Browser) (pg : Page) (hs : Small pg.routes) (hd : Distinct pg.routes) (st : St)
    (v : Value) (p : Pair) (hp : pg.routes[v.idx]? = some p) (ht : Typed p.members v.members) :
    step br pg st (.setRoute (some v))
      = .ok (⟨pg.uriPrefix ++ toString pg.routes v, toString pg.routes v, some v⟩, [.text, .route]) ↔
    br.resolve (pg.uriPrefix ++ upToNul (toString pg.routes v)) = some (pg.uriPrefix ++ toString pg.routes v)
      ∧ ((p.name = [] ∧ v.members = []) ∨ (Segment p.name ∧ ∀ m ∈ v.members, Readable pg.W m)) := by
  rw [← round_trip_iff pg.W pg.routes hs hd v p hp ht]
  simp only [step, pushState]
  cases hr : br.resolve (pg.uriPrefix ++ upToNul (toString pg.routes v)) with
  | none => simp [Cpp.bind]
  | some q =>
    simp only [Cpp.bind, receive, Option.some.injEq]
    constructor
    · intro h
      split at h
      · cases h
      · split at h
        · cases h
        · rename_i w hw
          simp only [Cpp.ok.injEq, Prod.mk.injEq, St.mk.injEq, and_true] at h
          obtain ⟨h1, h2, h3⟩ := h
          rw [h2, h3] at hw
          exact ⟨h1, hw⟩
    · rintro ⟨rfl, h⟩
      simp [h]

/-- Both happen: a route that the browser leaves alone, and one that it encodes. -/
example : encoding.resolve (samplePage.uriPrefix ++ upToNul (toString samplePage.routes ⟨3, [.int 42, .str (ascii "world")]⟩))
      = some (samplePage.uriPrefix ++ toString samplePage.routes ⟨3, [.int 42, .str (ascii "world")]⟩)
    ∧ ¬ encoding.resolve (samplePage.uriPrefix ++ upToNul (toString samplePage.routes ⟨2, [.str (ascii "a b")]⟩))
      = some (samplePage.uriPrefix ++ toString samplePage.routes ⟨2, [.str (ascii "a b")]⟩) := by decide +kernel

end Nbdl.Nav
