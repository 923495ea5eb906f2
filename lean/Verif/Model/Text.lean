import Verif.Model.Reader

/-!
UTF-8, as used by `bytes.decode("utf-8")` (iterio.py:217) and `str.encode("utf-8")` (function.py:81-84).
Lean's own UTF-8 functions are used; a `Str` has no surrogate code points, on which Python's `encode` would raise.
-/
namespace Pieshell.Io

/-- `s.encode("utf-8")`. [CPython Objects/unicodeobject.c; used at function.py:82, 84] -/
def encode (s : Str) : Bytes := s.flatMap String.utf8EncodeChar

/-- `b.decode("utf-8")`; `none` is `UnicodeDecodeError`.
[CPython Objects/unicodeobject.c; used at iterio.py:217, base.py:179] -/
def decode (b : Bytes) : Option Str := (b.toByteArray.utf8Decode?).map Array.toList

theorem decode_encode (s : Str) : decode (encode s) = some s := by
  have h := List.utf8Decode?_utf8Encode (l := s)
  unfold List.utf8Encode at h
  unfold decode encode
  rw [h]; rfl

/-- A byte 10 appears in an encoded character only as that of the newline character. -/
theorem nl_utf8EncodeChar (c : Char) (h : NL ∈ String.utf8EncodeChar c) : c = '\n' := by
  unfold String.utf8EncodeChar at h
  have key : ∀ a : Nat, NL = UInt8.ofNat a → a % 256 = 10 := by
    intro a e
    have := congrArg UInt8.toNat e
    simpa [NL] using this.symm
  have hv : c.val.toNat = 10 → c = '\n' := by
    intro e
    apply Char.ext
    apply UInt32.toNat_inj.1
    rw [e]; rfl
  dsimp only at h
  split at h
  · simp only [List.mem_singleton] at h
    have := key _ h
    exact hv (by omega)
  · split at h
    · simp only [List.mem_cons, List.not_mem_nil, or_false] at h
      rcases h with h | h <;> have := key _ h <;> omega
    · split at h
      · simp only [List.mem_cons, List.not_mem_nil, or_false] at h
        rcases h with h | h | h <;> have := key _ h <;> omega
      · simp only [List.mem_cons, List.not_mem_nil, or_false] at h
        rcases h with h | h | h | h <;> have := key _ h <;> omega

theorem nl_encode (s : Str) : NL ∈ encode s ↔ '\n' ∈ s := by
  unfold encode
  rw [List.mem_flatMap]
  constructor
  · rintro ⟨c, hc, h⟩
    rw [← nl_utf8EncodeChar c h]; exact hc
  · intro h
    exact ⟨'\n', h, by decide⟩

end Pieshell.Io
