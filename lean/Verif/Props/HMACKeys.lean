import Verif.Props.HMAC

/-!
# HMAC: keys that give the same tags (C158)
-/

namespace CT.Props.HMACKeys
open CT.HMAC CT.Props.HMAC
open CT.Spec.HMAC (hmac normKey)

/-- One of the two is the other followed by zeros. -/
def SameUpToZeros (a b : List U8) : Prop := ∃ n, a = b ++ List.replicate n 0 ∨ b = a ++ List.replicate n 0

/-- What RFC 2104 takes for the key: itself, or its hash if it is longer than a block. -/
def effective (k : List U8) : List U8 := if 64 < k.length then Spec.SHA256.digest k else k

theorem effective_length (k : List U8) : (effective k).length ≤ 64 := by
  rw [effective]
  split
  · rw [SHA256.digest_length]; omega
  · omega

theorem normKey_eq (k : List U8) : normKey k = effective k ++ List.replicate (64 - (effective k).length) 0 := by
  rw [normKey, effective]

theorem xor_map_inj {a b : List U8} {c : U8} (h : a.map (· ^^^ c) = b.map (· ^^^ c)) : a = b := by
  have e : ∀ l : List U8, (l.map (· ^^^ c)).map (· ^^^ c) = l := by
    intro l
    rw [List.map_map]
    conv => rhs; rw [← List.map_id l]
    congr 1
    funext x
    simp [BitVec.xor_assoc]
  rw [← e a, h, e b]

theorem state_inj (k k' : List U8) : keyState k = keyState k' ↔ normKey k = normKey k' := by
  constructor
  · intro h
    have h1 : (keyState k).innerKey = (keyState k').innerKey := by rw [h]
    exact xor_map_inj h1
  · intro h
    rw [keyState, keyState, h]

theorem pad_eq (a b : List U8) (m : Nat) (ha : a.length ≤ m) (hb : b.length ≤ m) :
    a ++ List.replicate (m - a.length) 0 = b ++ List.replicate (m - b.length) 0 ↔ SameUpToZeros a b := by
  have one : ∀ a b : List U8, a.length ≤ m → b.length ≤ m → b.length ≤ a.length →
      a ++ List.replicate (m - a.length) 0 = b ++ List.replicate (m - b.length) 0 →
      a = b ++ List.replicate (a.length - b.length) 0 := by
    intro a b ha hb hl h
    have h1 := congrArg (List.take a.length) h
    rw [List.take_left' rfl, List.take_append, List.take_of_length_le hl, List.take_replicate, Nat.min_eq_left (by omega)] at h1
    exact h1
  have two : ∀ (b : List U8) (n : Nat), (b ++ List.replicate n 0).length ≤ m →
      (b ++ List.replicate n 0) ++ List.replicate (m - (b ++ List.replicate n (0 : U8)).length) 0 =
        b ++ List.replicate (m - b.length) (0 : U8) := by
    intro b n hl
    rw [List.append_assoc, List.replicate_append_replicate]
    simp only [List.length_append, List.length_replicate] at hl ⊢
    rw [show n + (m - (b.length + n)) = m - b.length by omega]
  constructor
  · intro h
    by_cases hl : b.length ≤ a.length
    · exact ⟨a.length - b.length, Or.inl (one a b ha hb hl h)⟩
    · exact ⟨b.length - a.length, Or.inr (one b a hb ha (by omega) h.symm)⟩
  · rintro ⟨n, rfl | rfl⟩
    · exact two b n ha
    · exact (two a n hb).symm

/-- **C158**, exactly: two keys of any lengths leave the same object if and only if, after hashing the longer than 64 bytes, they
differ in zeros at the end only. -/
theorem hmac_keys_exact (junk junk' : Nat → U8) (k k' : List U8) (hk : k.length + 128 < 2 ^ 31) (hk' : k'.length + 128 < 2 ^ 31) :
    loadKey junk k k.length = loadKey junk' k' k'.length ↔ SameUpToZeros (effective k) (effective k') := by
  have h1 := hmac_load_key_normalises junk k [] hk
  have h2 := hmac_load_key_normalises junk' k' [] hk'
  rw [List.append_nil] at h1 h2
  rw [h1, h2, ← pad_eq _ _ 64 (effective_length k) (effective_length k'), ← normKey_eq, ← normKey_eq, ← state_inj]
  exact Res.ok_inj

example (junk junk' : Nat → U8) := hmac_keys_exact junk junk' [1, 2] [1, 2, 0] (by decide) (by decide)

/-- **C158**: whoever holds a key of fewer than 64 bytes can add a zero, whoever holds one of more than 64 bytes can take its hash:
the tags are those of the key, and validation accepts the same. -/
theorem hmac_equivalent_keys (junk junk' : Nat → U8) (k : List U8) (hk : k.length + 128 < 2 ^ 31) :
    (k.length < 64 → ∀ (tag msg : List U8) (size : Nat) (n : Int),
      (do tagGeneration junk (← loadKey junk (k ++ [0]) (k.length + 1)) tag msg size n) =
        (do tagGeneration junk (← loadKey junk' k k.length) tag msg size n) ∧
      (do tagValidation junk (← loadKey junk (k ++ [0]) (k.length + 1)) tag msg size n) =
        (do tagValidation junk (← loadKey junk' k k.length) tag msg size n)) ∧
    (64 < k.length → ∀ (tag msg : List U8) (size : Nat) (n : Int),
      (do tagGeneration junk (← loadKey junk (Spec.SHA256.digest k) 32) tag msg size n) =
        (do tagGeneration junk (← loadKey junk' k k.length) tag msg size n) ∧
      (do tagValidation junk (← loadKey junk (Spec.SHA256.digest k) 32) tag msg size n) =
        (do tagValidation junk (← loadKey junk' k k.length) tag msg size n)) := by
  constructor
  · intro h tag msg size n
    have e := (hmac_keys_exact junk junk' (k ++ [0]) k (by simp; omega) hk).2 (by
      rw [effective, effective, if_neg (by simp; omega), if_neg (by omega)]
      exact ⟨1, Or.inl rfl⟩)
    rw [show ((k ++ [(0 : U8)]).length : Int) = (k.length : Int) + 1 by simp] at e
    rw [e]
    exact ⟨rfl, rfl⟩
  · intro h tag msg size n
    have ld := SHA256.digest_length k
    have e := (hmac_keys_exact junk junk' (Spec.SHA256.digest k) k (by omega) hk).2 (by
      rw [effective, effective, if_neg (by omega), if_pos h]
      exact ⟨0, Or.inl (List.append_nil _).symm⟩)
    rw [ld] at e
    rw [show ((32 : Nat) : Int) = 32 from rfl] at e
    rw [e]
    exact ⟨rfl, rfl⟩

example (junk junk' : Nat → U8) (tag msg : List U8) :=
  (hmac_equivalent_keys junk junk' [1, 2] (by decide)).1 (by decide) tag msg 5 16

/-- **C158**, what holds: keys of at most 64 bytes that are equally long, or that do not end in zero, leave different objects. -/
theorem hmac_keys_partial (junk junk' : Nat → U8) (k k' : List U8) (hk : k.length ≤ 64) (hk' : k'.length ≤ 64) (hne : k ≠ k')
    (h : k.length = k'.length ∨ (k.getLast? ≠ some 0 ∧ k'.getLast? ≠ some 0)) :
    loadKey junk k k.length ≠ loadKey junk' k' k'.length := by
  intro e
  rw [hmac_keys_exact junk junk' k k' (by omega) (by omega), effective, effective, if_neg (by omega), if_neg (by omega)] at e
  have z : ∀ (a : List U8) (n : Nat), (a ++ List.replicate n 0).length = a.length ∨ (a ++ List.replicate n (0 : U8)).getLast? ≠ some 0 →
      a ++ List.replicate n 0 = a := by
    intro a n h
    cases n with
    | zero => simp
    | succ n =>
      exfalso
      rcases h with h | h
      · simp at h
      · apply h
        rw [List.replicate_succ', ← List.append_assoc, List.getLast?_append]
        simp
  obtain ⟨n, h1 | h1⟩ := e
  · subst h1
    exact hne (z k' n (h.imp id And.left))
  · subst h1
    exact hne (z k n (h.imp Eq.symm And.right)).symm

example (junk junk' : Nat → U8) : loadKey junk [1, 2] 2 ≠ loadKey junk' [1, 2, 3] 3 :=
  hmac_keys_partial junk junk' [1, 2] [1, 2, 3] (by decide) (by decide) (by decide) (.inr (by decide))

/-- **C158** refuted. -/
theorem hmac_keys_refuted :
    ¬ ∀ (junk : Nat → U8) (k k' : List U8), k.length ≤ 64 → k'.length ≤ 64 → k ≠ k' →
      ∃ (tag msg : List U8) (size : Nat) (n : Int),
        (do tagGeneration junk (← loadKey junk k k.length) tag msg size n) ≠
          (do tagGeneration junk (← loadKey junk k' k'.length) tag msg size n) := by
  intro h
  obtain ⟨tag, msg, size, n, h1⟩ := h (fun _ => 0) [1, 0] [1] (by simp) (by simp) (by decide)
  exact h1 ((hmac_equivalent_keys (fun _ => 0) (fun _ => 0) [1] (by simp)).1 (by simp) tag msg size n).1

/-- Keys that differ in a zero at the end, keys that do not. -/
example : loadKey (fun _ => 1) [1, 2, 0, 0] 4 = loadKey (fun _ => 2) [1, 2] 2 ∧ loadKey (fun _ => 1) [1, 2, 3] 3 ≠ loadKey (fun _ => 1) [1, 2] 2 :=
  ⟨(hmac_keys_exact (fun _ => 1) (fun _ => 2) [1, 2, 0, 0] [1, 2] (by simp) (by simp)).2 ⟨2, Or.inl rfl⟩,
   hmac_keys_partial (fun _ => 1) (fun _ => 1) [1, 2, 3] [1, 2] (by simp) (by simp) (by decide) (Or.inr ⟨by decide, by decide⟩)⟩

/-- A key of 100 bytes and its hash. -/
example (tag msg : List U8) :
    (do tagGeneration (fun _ => 0) (← loadKey (fun _ => 0) (Spec.SHA256.digest (List.replicate 100 1)) 32) tag msg msg.length 32) =
      (do tagGeneration (fun _ => 0) (← loadKey (fun _ => 0) (List.replicate 100 1) 100) tag msg msg.length 32) :=
  ((hmac_equivalent_keys (fun _ => 0) (fun _ => 0) (List.replicate 100 1) (by simp)).2 (by simp) tag msg msg.length 32).1

end CT.Props.HMACKeys
