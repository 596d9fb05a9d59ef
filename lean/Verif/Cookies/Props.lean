import Verif.Cookies.Lemmas
/-! Cookie properties C17, C18. -/
namespace Nbdl.Cookies
open Spec (Cookie WF render firstValue afterNextValued visible)

/-! ## C17 -/

/-- C17, the exact behaviour on every well-formed cookie header: the value of the first cookie named
`nbdl_auth` whose value is not empty.  If there is none the end iterator is dereferenced: undefined
(`nul = false`), or, where that reads the string's terminating NUL, an empty token. -/
theorem auth_token_exact (nul : Bool) (cs : List Cookie) (h : ∀ c ∈ cs, WF c) :
    getAuthToken nul (render cs)
      = match cs.find? (fun c => c.name = ascii "nbdl_auth" ∧ c.value.isSome ∧ c.value ≠ some []) with
        | some c => .ok (c.value.getD [])
        | none => if cs = [] ∨ nul = true then .ok [] else .ub :=
  authLoop_render nul cs h

/-- C17, partial: if some cookie is named `nbdl_auth` and none of that name has an empty value, the
token is the value of the first one. -/
theorem auth_token_partial (nul : Bool) (cs : List Cookie) (h : ∀ c ∈ cs, WF c)
    (hex : ∃ c ∈ cs, c.name = ascii "nbdl_auth" ∧ c.value.isSome = true)
    (hne : ∀ c ∈ cs, c.name = ascii "nbdl_auth" → c.value ≠ some []) :
    getAuthToken nul (render cs) = .ok (firstValue (ascii "nbdl_auth") cs) := by
  have e : cs.find? (fun c => c.name = ascii "nbdl_auth" ∧ c.value.isSome ∧ c.value ≠ some [])
      = cs.find? (fun c => c.name = ascii "nbdl_auth" ∧ c.value.isSome) := by
    clear h hex
    induction cs with
    | nil => rfl
    | cons c cs ih =>
      have hc := hne c (by simp)
      have ih := ih (fun d hd => hne d (by simp [hd]))
      rw [List.find?_cons, List.find?_cons, ih]
      by_cases h1 : c.name = ascii "nbdl_auth"
      · simp [h1, hc h1]
      · simp [h1]
  rw [auth_token_exact nul cs h, e]
  unfold firstValue
  cases hf : cs.find? (fun c => c.name = ascii "nbdl_auth" ∧ c.value.isSome) with
  | some c => rfl
  | none =>
    obtain ⟨c, hc, h1, h2⟩ := hex
    have := List.find?_eq_none.1 hf c hc
    simp [h1, h2] at this

/-- Cookies meeting the hypotheses. -/
def sampleCookies : List Cookie :=
  [⟨ascii "lang", some (ascii "en=GB")⟩, ⟨ascii "flag", none⟩,
   ⟨ascii "nbdl_auth", some (ascii "secret")⟩, ⟨ascii "z", some []⟩]

theorem sampleCookies_wf : ∀ c ∈ sampleCookies, WF c := by
  intro c hc
  simp only [sampleCookies, List.mem_cons, List.not_mem_nil, or_false] at hc
  rcases hc with rfl | rfl | rfl | rfl <;>
    exact ⟨by decide, by decide, by intro v hv; simp at hv; try (subst hv; decide)⟩

example : getAuthToken false (render sampleCookies) = .ok (ascii "secret") := by
  rw [auth_token_exact false _ sampleCookies_wf]; decide

/-- C17 fails: a header without an auth cookie is undefined behaviour … -/
theorem auth_token_absent_violated (cs : List Cookie) (h : ∀ c ∈ cs, WF c) (hne : cs ≠ [])
    (hno : ∀ c ∈ cs, c.name ≠ ascii "nbdl_auth") : getAuthToken false (render cs) = .ub := by
  rw [auth_token_exact false cs h, List.find?_eq_none.2 (by simpa using fun c hc e => absurd e (hno c hc))]
  simp [hne]

/-- … and when the first cookie of that name is empty, the value of a later one is returned. -/
theorem auth_token_empty_violated :
    ∃ cs : List Cookie, (∀ c ∈ cs, WF c) ∧ firstValue (ascii "nbdl_auth") cs = []
      ∧ getAuthToken true (render cs) = .ok (ascii "x") := by
  refine ⟨[⟨ascii "nbdl_auth", some []⟩, ⟨ascii "nbdl_auth", some (ascii "x")⟩], ?_, by decide, ?_⟩
  · intro c hc
    simp only [List.mem_cons, List.not_mem_nil, or_false] at hc
    rcases hc with rfl | rfl <;>
      exact ⟨by decide, by decide, by intro v hv; simp at hv; subst hv; decide⟩
  · rw [auth_token_exact]
    · decide
    · intro c hc
      simp only [List.mem_cons, List.not_mem_nil, or_false] at hc
      rcases hc with rfl | rfl <;>
        exact ⟨by decide, by decide, by intro v hv; simp at hv; subst hv; decide⟩

/-! ## C18 -/

/-- C18, the exact behaviour on every well-formed header: the first session cookie among the
`visible` cookies, those not hidden behind a cookie without a value. -/
theorem session_cookie_exact (cs : List Cookie) (h : ∀ c ∈ cs, WF c) :
    getSessionCookie (render cs) = firstValue (ascii "NBDL_SESS") (visible cs) :=
  session_render cs h _ (.inl rfl)

/-- C18, partial: if every cookie has a value, the result is the value of the first cookie named
`NBDL_SESS`, and empty if there is none.  (Missing: headers with valueless cookies.) -/
theorem session_cookie_partial (cs : List Cookie) (h : ∀ c ∈ cs, WF c)
    (hv : ∀ c ∈ cs, c.value.isSome = true) :
    getSessionCookie (render cs) = firstValue (ascii "NBDL_SESS") cs := by
  rw [session_cookie_exact cs h, visible_all cs hv]

/-- A header meeting the hypotheses. -/
def sampleSession : List Cookie :=
  [⟨ascii "a", some (ascii "1")⟩, ⟨ascii "NBDL_SESS", some (ascii "s=3")⟩, ⟨ascii "NBDL_SESS", some (ascii "t")⟩]

example : getSessionCookie (render sampleSession) = ascii "s=3" := by
  rw [session_cookie_partial]
  · decide
  · intro c hc
    simp only [sampleSession, List.mem_cons, List.not_mem_nil, or_false] at hc
    rcases hc with rfl | rfl | rfl <;>
      exact ⟨by decide, by decide, by intro v hv; simp at hv; subst hv; decide⟩
  · decide

/-- C18 fails: a cookie without a value directly before the session cookie hides it, for every
session value. -/
theorem session_cookie_hidden_violated (n v : List Byte) (hn : WF ⟨n, none⟩)
    (hv : ∀ b ∈ v, b ≠ 59#8) :
    getSessionCookie (render [⟨n, none⟩, ⟨ascii "NBDL_SESS", some v⟩]) = [] := by
  rw [session_cookie_exact]
  · simp [visible, afterNextValued, firstValue]
  · intro c hc
    simp only [List.mem_cons, List.not_mem_nil, or_false] at hc
    rcases hc with rfl | rfl
    · exact hn
    · exact ⟨show ascii "NBDL_SESS" ≠ [] by decide,
        show ∀ b ∈ ascii "NBDL_SESS", b ≠ 59#8 ∧ b ≠ 61#8 ∧ b ∉ Spec.white by decide,
        by intro w hw b hb; simp at hw; subst hw; exact hv b hb⟩

example : WF ⟨ascii "flag", none⟩ := ⟨by decide, by decide, by simp⟩

/-- Taking off double quotes: what is between two quotes, and anything that does not begin with one as it is.  (The
function is not used by the parser: a value in quotes is returned with them.) -/
theorem trim_quotes (v : List Byte) :
    trimDoubleQuotes ([34#8] ++ v ++ [34#8]) = v ∧ (v.head? ≠ some 34#8 → trimDoubleQuotes v = v) := by
  refine ⟨by simp [trimDoubleQuotes], fun h => ?_⟩
  simp [trimDoubleQuotes, h]

/-- It takes off the last character even if that is not a quote. -/
theorem trim_quotes_violated (v : List Byte) (b : Byte) : trimDoubleQuotes ([34#8] ++ v ++ [b]) = v := by
  simp [trimDoubleQuotes]

end Nbdl.Cookies
