import Verif.Basic.Io

/-!
# The encryption loops shared by the stream ciphers

Every packet function of the library ends with the same two loops: whole words while at least four
bytes are left, then single bytes taken from the memory image of the keystream words.
-/

namespace CT

/-- `ks[i]` for a keystream array of words. -/
def ksGet (ks : List U32) (i : Nat) : Res U32 :=
  match ks[i]? with
  | some w => .ok w
  | none => .ub .outOfBounds

/-- `while (n > 3) { *out32 = *in32 ^ ks[idx++]; out32++; in32++; n -= 4; }`
(chacha.cpp:98-103, hc128.cpp:102-107, sosemanuk.cpp:101-107, aes_ctr.cpp:169-173).
`off` is the byte offset of the two pointers. -/
def Io.wordLoop (ks : List U32) : Nat → Nat → Nat → Nat → Io → Res (Nat × Nat × Nat × Io)
  | 0, _, _, _, _ => .ub .diverges
  | fuel + 1, n, idx, off, io =>
    if n > 3 then do
      let k ← ksGet ks idx
      let io ← io.xor32 off k
      wordLoop ks fuel (n - 4) (idx + 1) (off + 4) io
    else .ok (n, idx, off, io)

/-- `for (; n > 0; n--) { *out = *in ^ *ksbyte; out++; in++; ksbyte++; }` where `ksbyte` walks
through the memory image of `ks`, starting at byte `j`
(chacha.cpp:107-112, hc128.cpp:109-114, rabbit.cpp:188-193). -/
def Io.byteLoop (ks : List U32) : Nat → Nat → Nat → Io → Res Io
  | 0, _, _, io => .ok io
  | n + 1, j, off, io => do
    let k ← ksGet ks (j / 4)
    let io ← io.xor8 off (byteN k (j % 4))
    byteLoop ks n (j + 1) (off + 1) io

theorem wordsToBytesLE_drop (ks : List U32) (i : Nat) :
    wordsToBytesLE (ks.drop i) = (wordsToBytesLE ks).drop (4 * i) := by
  induction ks generalizing i with
  | nil => simp
  | cons w ks ih =>
    cases i with
    | zero => simp
    | succ i =>
      rw [List.drop_succ_cons, ih, wordsToBytesLE_cons, List.drop_append, bytesLE32_length]
      rw [List.drop_of_length_le (l := bytesLE32 w) (by rw [bytesLE32_length]; omega), List.nil_append]
      congr 1

theorem wordsToBytesLE_take (ks : List U32) (i : Nat) :
    wordsToBytesLE (ks.take i) = (wordsToBytesLE ks).take (4 * i) := by
  induction ks generalizing i with
  | nil => simp
  | cons w ks ih =>
    cases i with
    | zero => simp
    | succ i =>
      rw [List.take_succ_cons, wordsToBytesLE_cons, ih, wordsToBytesLE_cons, List.take_append,
        bytesLE32_length]
      rw [List.take_of_length_le (l := bytesLE32 w) (by rw [bytesLE32_length]; omega)]
      congr 2

theorem wordsToBytesLE_getElem (ks : List U32) (j : Nat) (h : j / 4 < ks.length) :
    (wordsToBytesLE ks)[j]? = some (byteN ks[j / 4] (j % 4)) := by
  have e : j = 4 * (j / 4) + j % 4 := by omega
  have h4 : j % 4 < 4 := Nat.mod_lt _ (by omega)
  conv => lhs; rw [e]
  rw [← List.getElem?_drop, ← wordsToBytesLE_drop, List.drop_eq_getElem_cons h, wordsToBytesLE_cons,
    List.getElem?_append_left (by rw [bytesLE32_length]; omega)]
  generalize ks[j / 4] = w
  generalize j % 4 = r at h4
  match r, h4 with
  | 0, _ => rfl
  | 1, _ => rfl
  | 2, _ => rfl
  | 3, _ => rfl

/-- The word loop encrypts with the bytes of the keystream words. -/
theorem Io.wordLoop_xored (ks : List U32) {io : Io} : ∀ (fuel n idx off : Nat) (pre : List U8),
    pre.length = off → n < fuel → idx + n / 4 ≤ ks.length → io.Fits (off + n) →
    Io.wordLoop ks fuel n idx off (io.xored pre) =
      .ok (n % 4, idx + n / 4, off + 4 * (n / 4),
        io.xored (pre ++ ((wordsToBytesLE ks).drop (4 * idx)).take (4 * (n / 4)))) := by
  intro fuel
  induction fuel with
  | zero => intro n _ _ _ _ h; omega
  | succ fuel ih =>
    intro n idx off pre hp hn hk hf
    rw [wordLoop]
    split
    · rename_i h3
      have hidx : idx < ks.length := by omega
      simp only [ksGet, List.getElem?_eq_getElem hidx, Res.ok_bind]
      rw [xor32_xored hp (hf.mono (by omega))]
      simp only [Res.ok_bind]
      rw [ih (n - 4) (idx + 1) (off + 4) _ (by simp [hp, bytesLE32_length]) (by omega) (by omega)
        (hf.mono (by omega))]
      have e1 : n / 4 = (n - 4) / 4 + 1 := by omega
      simp only [Res.ok_inj, Prod.mk.injEq]
      refine ⟨by omega, by omega, by omega, ?_⟩
      congr 1
      rw [List.append_assoc]
      congr 1
      rw [← wordsToBytesLE_drop, ← wordsToBytesLE_drop, List.drop_eq_getElem_cons hidx,
        wordsToBytesLE_cons, e1, Nat.mul_add, Nat.mul_one, List.take_append, bytesLE32_length,
        List.take_of_length_le (l := bytesLE32 _) (by rw [bytesLE32_length]; omega)]
      simp
    · rename_i h3
      have e0 : n / 4 = 0 := by omega
      have e1 : n % 4 = n := by omega
      simp [e0, e1]

/-- The byte loop encrypts with the bytes of the keystream words. -/
theorem Io.byteLoop_xored (ks : List U32) {io : Io} : ∀ (n j off : Nat) (pre : List U8),
    pre.length = off → j + n ≤ 4 * ks.length → io.Fits (off + n) →
    Io.byteLoop ks n j off (io.xored pre) =
      .ok (io.xored (pre ++ ((wordsToBytesLE ks).drop j).take n)) := by
  intro n
  induction n with
  | zero => intro j off pre _ _ _; simp [byteLoop]
  | succ n ih =>
    intro j off pre hp hk hf
    have hj : j / 4 < ks.length := by omega
    simp only [byteLoop, ksGet, List.getElem?_eq_getElem hj, Res.ok_bind]
    rw [xor8_xored hp (hf.mono (by omega))]
    simp only [Res.ok_bind]
    rw [ih (j + 1) (off + 1) _ (by simp [hp]) (by omega) (hf.mono (by omega))]
    have hlen : j < (wordsToBytesLE ks).length := by rw [wordsToBytesLE_length]; omega
    have hg := wordsToBytesLE_getElem ks j hj
    rw [List.getElem?_eq_getElem hlen] at hg
    simp only [Option.some.injEq] at hg
    simp only [Res.ok_inj]
    congr 1
    rw [List.append_assoc, List.drop_eq_getElem_cons hlen, List.take_succ_cons, hg]
    rfl

/-- Both loops together encrypt `n` bytes with the first `n` keystream bytes from word `idx` on. -/
theorem Io.loops_xored (ks : List U32) {io : Io} (fuel n idx off : Nat) (pre : List U8)
    (hp : pre.length = off) (hfuel : n < fuel) (hk : 4 * idx + n ≤ 4 * ks.length)
    (hf : io.Fits (off + n)) :
    (do
      let (rest, i, off, io) ← Io.wordLoop ks fuel n idx off (io.xored pre)
      Io.byteLoop ks rest (4 * i) off io) =
      .ok (io.xored (pre ++ ((wordsToBytesLE ks).drop (4 * idx)).take n)) := by
  rw [wordLoop_xored ks fuel n idx off pre hp hfuel (by omega) hf]
  simp only [Res.ok_bind]
  have hl : (pre ++ ((wordsToBytesLE ks).drop (4 * idx)).take (4 * (n / 4))).length
      = off + 4 * (n / 4) := by
    simp only [List.length_append, List.length_take, List.length_drop, wordsToBytesLE_length, hp]
    omega
  rw [byteLoop_xored ks _ _ _ _ hl (by omega) (hf.mono (by omega))]
  simp only [Res.ok_inj]
  congr 1
  rw [List.append_assoc]
  congr 1
  have e : n = 4 * (n / 4) + n % 4 := by omega
  conv => rhs; rw [e]
  rw [List.take_add, List.drop_drop]
  congr 3; omega

end CT
