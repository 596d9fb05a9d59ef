import Verif.Address.Model
/-!
C55: splitting an address.
-/
namespace Nbdl.Address

/-- `find` gives the first occurrence. -/
theorem find_spec (sub s : List Byte) (i : Nat) (hs : sub ≠ []) :
    find sub s = some i ↔ sub <+: s.drop i ∧ ∀ j < i, ¬ sub <+: s.drop j := by
  induction s generalizing i with
  | nil =>
    have : sub.isEmpty = false := by cases sub with
      | nil => exact absurd rfl hs
      | cons => rfl
    simp [find, this, hs]
  | cons c s ih =>
    unfold find
    split
    · rename_i h
      rw [List.isPrefixOf_iff_prefix] at h
      constructor
      · intro h'; injection h' with h'; subst h'
        exact ⟨h, by simp⟩
      · rintro ⟨-, h2⟩
        cases i with
        | zero => rfl
        | succ i => exact absurd h (h2 0 (by omega))
    · rename_i h
      rw [List.isPrefixOf_iff_prefix] at h
      cases i with
      | zero => simp [h]
      | succ i =>
        have hm : (find sub s).map (· + 1) = some (i + 1) ↔ find sub s = some i := by
          cases find sub s <;> simp
        rw [hm, ih i]
        constructor
        · rintro ⟨h1, h2⟩
          refine ⟨h1, fun j hj => ?_⟩
          cases j with
          | zero => exact h
          | succ j => exact h2 j (by omega)
        · rintro ⟨h1, h2⟩
          exact ⟨h1, fun j hj => h2 (j + 1) (by omega)⟩

theorem find_none (sub s : List Byte) (hs : sub ≠ []) :
    find sub s = none ↔ ∀ j, ¬ sub <+: s.drop j := by
  induction s with
  | nil =>
    have : sub.isEmpty = false := by cases sub with
      | nil => exact absurd rfl hs
      | cons => rfl
    simp [find, this, hs]
  | cons c s ih =>
    unfold find
    split
    · rename_i h
      rw [List.isPrefixOf_iff_prefix] at h
      simp only [reduceCtorEq, false_iff]
      exact fun h' => h' 0 h
    · rename_i h
      rw [List.isPrefixOf_iff_prefix] at h
      have hm : (find sub s).map (· + 1) = none ↔ find sub s = none := by
        cases find sub s <;> simp
      rw [hm, ih]
      constructor
      · intro h1 j
        cases j with
        | zero => exact h
        | succ j => exact h1 j
      · intro h1 j; exact h1 (j + 1)

/-- Text that starts with a colon is not inside text without colons. -/
theorem no_colon_prefix (rest s t : List Byte) (hc : 58#8 ∉ s) (j : Nat) (hj : j < s.length) :
    ¬ (58#8 :: rest) <+: (s ++ t).drop j := by
  rintro ⟨r, h⟩
  have h1 : ((s ++ t).drop j)[0]? = some 58#8 := by rw [← h]; rfl
  rw [List.getElem?_drop, Nat.add_zero, List.getElem?_append_left hj, List.getElem?_eq_getElem hj] at h1
  injection h1 with h1
  exact hc (h1 ▸ List.getElem_mem hj)

theorem find_colon (s t : List Byte) (hc : 58#8 ∉ s) : find (ascii ":") (s ++ 58#8 :: t) = some s.length := by
  rw [find_spec _ _ _ (by decide)]
  refine ⟨?_, fun j hj => no_colon_prefix [] s _ hc j hj⟩
  rw [List.drop_left]
  exact ⟨t, rfl⟩

theorem find_scheme (s t : List Byte) (hc : 58#8 ∉ s) : find (ascii "://") (s ++ ascii "://" ++ t) = some s.length := by
  rw [find_spec _ _ _ (by decide)]
  refine ⟨?_, fun j hj => ?_⟩
  · rw [List.append_assoc, List.drop_left]
    exact ⟨t, rfl⟩
  · rw [List.append_assoc]
    exact no_colon_prefix [47#8, 47#8] s _ hc j hj

theorem find_none_of_no_colon (s rest : List Byte) (hc : 58#8 ∉ s) : find (58#8 :: rest) s = none := by
  rw [find_none _ _ (by simp)]
  intro j
  by_cases hj : j < s.length
  · have := no_colon_prefix rest s [] hc j hj
    simpa using this
  · rw [List.drop_of_length_le (by omega)]
    simp

/-- C55, proved part: the host and the port of `scheme://host:port` are found.  What is returned as the
protocol is the rest of the address from "://" on. -/
theorem split_host_port_partial (scheme host port : List Byte) (hs : 58#8 ∉ scheme) (hh : 58#8 ∉ host) :
    splitAddress (scheme ++ ascii "://" ++ (host ++ 58#8 :: port))
      = ⟨ascii "://" ++ (host ++ 58#8 :: port), host, port⟩ := by
  unfold splitAddress
  rw [find_scheme _ _ hs]
  have h1 : (scheme ++ ascii "://" ++ (host ++ 58#8 :: port)).drop scheme.length
      = ascii "://" ++ (host ++ 58#8 :: port) := by rw [List.append_assoc, List.drop_left]
  have h2 : (scheme ++ ascii "://" ++ (host ++ 58#8 :: port)).drop (scheme.length + 3) = host ++ 58#8 :: port := by
    rw [← List.drop_drop, h1]
    exact List.drop_left (l₁ := ascii "://")
  simp only
  rw [h1, h2]
  unfold splitPort
  rw [find_colon _ _ hh]
  simp only [List.take_left]
  rw [← List.drop_drop, List.drop_left]
  rfl

/-- C55: without a port, the port is empty. -/
theorem split_no_port_partial (scheme host : List Byte) (hs : 58#8 ∉ scheme) (hh : 58#8 ∉ host) :
    splitAddress (scheme ++ ascii "://" ++ host) = ⟨ascii "://" ++ host, host, []⟩ := by
  unfold splitAddress
  rw [find_scheme _ _ hs]
  have h1 : (scheme ++ ascii "://" ++ host).drop scheme.length = ascii "://" ++ host := by
    rw [List.append_assoc, List.drop_left]
  have h2 : (scheme ++ ascii "://" ++ host).drop (scheme.length + 3) = host := by
    rw [← List.drop_drop, h1]
    exact List.drop_left (l₁ := ascii "://")
  simp only
  rw [h1, h2]
  unfold splitPort
  rw [show ascii ":" = [58#8] from rfl, find_none_of_no_colon host [] hh]

/-- C55: without a scheme, host and port are found and the protocol is empty. -/
theorem split_no_scheme (host port : List Byte) (hh : 58#8 ∉ host) (hp : 58#8 ∉ port)
    (hp' : ¬ ascii "//" <+: port) : splitAddress (host ++ 58#8 :: port) = ⟨[], host, port⟩ := by
  have hn : find (ascii "://") (host ++ 58#8 :: port) = none := by
    rw [find_none _ _ (by decide)]
    intro j
    by_cases hj : j < host.length
    · exact no_colon_prefix [47#8, 47#8] host _ hh j hj
    · by_cases hj' : j = host.length
      · subst hj'
        rw [List.drop_left]
        rintro ⟨r, h⟩
        apply hp'
        injection h with _ h
        exact ⟨r, h⟩
      · obtain ⟨k, rfl⟩ : ∃ k, j = host.length + (k + 1) := ⟨j - host.length - 1, by omega⟩
        rw [← List.drop_drop, List.drop_left, List.drop_succ_cons]
        have := (find_none (58#8 :: [47#8, 47#8]) port (by simp)).1 (find_none_of_no_colon port _ hp) k
        exact this
  unfold splitAddress
  rw [hn]
  unfold splitPort
  rw [find_colon _ _ hh]
  simp only [List.take_left]
  rw [← List.drop_drop, List.drop_left]
  rfl

example : splitAddress (ascii "wss://example.org:443") = ⟨ascii "://example.org:443", ascii "example.org", ascii "443"⟩ := by
  decide +kernel
example : splitAddress (ascii "localhost:80") = ⟨[], ascii "localhost", ascii "80"⟩ := by decide +kernel

/-- C55 violated: the protocol returned is never the scheme. -/
theorem protocol_violated (scheme host port : List Byte) (hs : 58#8 ∉ scheme) (hh : 58#8 ∉ host) :
    (splitAddress (scheme ++ ascii "://" ++ (host ++ 58#8 :: port))).protocol ≠ scheme := by
  rw [split_host_port_partial scheme host port hs hh]
  intro h
  apply hs
  rw [← h]
  simp [ascii]

/-- C55 violated: a host that contains colons (an IPv6 address) is cut at the first one. -/
theorem ipv6_violated : splitAddress (ascii "ws://[::1]:80") = ⟨ascii "://[::1]:80", ascii "[", ascii ":1]:80"⟩ := by
  decide +kernel

end Nbdl.Address
