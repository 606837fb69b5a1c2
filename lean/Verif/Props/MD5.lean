import Verif.Proof.MD5

/-!
# C11-C13: MD5
-/

namespace CT.Props.MD5
open CT CT.MD5

/-- A caller's loop: one `MD5Update` per chunk. -/
def updates (c : Ctx) : List (List U8) → Res Ctx
  | [] => .ok c
  | x :: xs => do
    let c ← update c x (BitVec.ofNat 32 x.length)
    updates c xs

/-- The context with all members zero. -/
def wiped : Ctx := { s0 := 0, s1 := 0, s2 := 0, s3 := 0, count0 := 0, count1 := 0, buffer := List.replicate 64 0 }

theorem updates_rep (xs : List (List U8)) {c : Ctx} {m : List U8} (h : Rep c m)
    (hx : ∀ x ∈ xs, x.length + 63 < 2 ^ 32) : ∃ c', updates c xs = .ok c' ∧ Rep c' (m ++ xs.flatten) := by
  induction xs generalizing c m with
  | nil => exact ⟨c, rfl, by simpa using h⟩
  | cons x xs ih =>
    have hl := hx x (by simp)
    obtain ⟨c1, h1, r1⟩ := update_rep h x [] (BitVec.ofNat 32 x.length)
      (by rw [BitVec.toNat_ofNat, Nat.mod_eq_of_lt (by omega)]) (by omega)
    rw [List.append_nil] at h1
    obtain ⟨c2, h2, r2⟩ := ih r1 (fun y hy => hx y (by simp [hy]))
    refine ⟨c2, ?_, by simpa [List.append_assoc] using r2⟩
    rw [updates, h1, Res.ok_bind, h2]

/-- C11: initialise, feed any chunks, finalise: the digest is the RFC 1321 digest of their
concatenation, whatever the context contained before and however the bytes were cut; the context is
wiped and the bytes behind the digest stay as they were.  (A chunk of more than 2^32 - 64 bytes is
the subject of C13.) -/
theorem md5_chunked (c : Ctx) (dst : List U8) (xs : List (List U8)) (hc : c.buffer.length = 64)
    (hd : 16 ≤ dst.length) (hx : ∀ x ∈ xs, x.length + 63 < 2 ^ 32) :
    (do let c ← updates (init c) xs
        final dst c) = .ok (Spec.MD5.digest xs.flatten ++ dst.drop 16, wiped) := by
  obtain ⟨c', h, r⟩ := updates_rep xs (rep_init c hc) hx
  rw [List.nil_append] at r
  rw [h, Res.ok_bind]
  exact final_rep r dst hd

example : (do let c ← updates (init { wiped with buffer := List.replicate 64 9 }) [[1, 2], [], List.replicate 70 3]
              final (List.replicate 20 7) c) =
    .ok (Spec.MD5.digest [[1, 2], [], List.replicate 70 3].flatten ++ List.replicate 4 7, wiped) :=
  md5_chunked _ _ [[1, 2], [], List.replicate 70 3] (by simp) (by simp) (by simp)

/-- C11: two ways of cutting the same bytes give the same digest. -/
theorem md5_chunking_irrelevant (c c' : Ctx) (dst : List U8) (xs ys : List (List U8)) (hc : c.buffer.length = 64)
    (hc' : c'.buffer.length = 64) (hd : 16 ≤ dst.length) (hx : ∀ x ∈ xs, x.length + 63 < 2 ^ 32)
    (hy : ∀ x ∈ ys, x.length + 63 < 2 ^ 32) (he : xs.flatten = ys.flatten) :
    (do let c ← updates (init c) xs
        final dst c) =
      (do let c ← updates (init c') ys
          final dst c) := by
  rw [md5_chunked c dst xs hc hd hx, md5_chunked c' dst ys hc' hd hy, he]

example : (do let c ← updates (init wiped) [[1, 2], [3]]
              final (List.replicate 16 7) c) =
          (do let c ← updates (init wiped) [[1], [2, 3]]
              final (List.replicate 16 7) c) :=
  md5_chunking_irrelevant _ _ _ _ _ (by simp [wiped]) (by simp [wiped]) (by simp) (by simp) (by simp) rfl

/-- C12: the one-call interface gives the RFC 1321 digest for every 32 bit size (also the largest),
whatever the context contained and whatever lies behind the input, and wipes the context. -/
theorem md5_one_shot (c : Ctx) (dst input extra : List U8) (size : U32) (hs : size.toNat = input.length)
    (hc : c.buffer.length = 64) (hd : 16 ≤ dst.length) :
    processPacket c dst (input ++ extra) size = .ok (Spec.MD5.digest input ++ dst.drop 16, wiped) := by
  have hl : input.length < 2 ^ 32 := by rw [← hs]; exact size.isLt
  obtain ⟨c', h, r⟩ := update_rep (rep_init c hc) input extra size hs (by simpa using hl)
  rw [List.nil_append] at r
  rw [processPacket, h, Res.ok_bind]
  exact final_rep r dst hd

example : processPacket { wiped with s0 := 5 } (List.replicate 16 0) ([0x61, 0x62, 0x63] ++ [1]) 3 =
    .ok (Spec.MD5.digest [0x61, 0x62, 0x63] ++ [], wiped) :=
  md5_one_shot _ _ [0x61, 0x62, 0x63] [1] 3 rfl (by simp [wiped]) (by simp)

/-- C13, what holds: an update with any size for which size and buffered bytes together stay below
2^32 is absorbed, without touching memory outside.  Missing: the sizes of `md5_update_refuted`. -/
theorem md5_update_partial {c : Ctx} {m : List U8} (h : Rep c m) (input extra : List U8) (len : U32)
    (hlen : len.toNat = input.length) (hw : m.length % 64 + input.length < 2 ^ 32) :
    ∃ c', update c (input ++ extra) len = .ok c' ∧ Rep c' (m ++ input) :=
  update_rep h input extra len hlen hw

example : ∃ c', update (init wiped) ([1, 2, 3] ++ [4]) 3 = .ok c' ∧ Rep c' ([] ++ [1, 2, 3]) :=
  md5_update_partial (rep_init wiped (by simp [wiped])) [1, 2, 3] [4] 3 rfl (by simp)

/-- C13, exactly when it fails: with an input of exactly the given size, the update reads outside of the
input if and only if size plus buffered bytes reach 2^32 (the loop condition `i + 63 < inputLen` wraps). -/
theorem md5_update_ub_iff {c : Ctx} {m : List U8} (h : Rep c m) (input : List U8) (len : U32)
    (hlen : len.toNat = input.length) :
    (update c input len).isUB = true ↔ 2 ^ 32 ≤ m.length % 64 + input.length := by
  constructor
  · intro hu
    rcases Nat.lt_or_ge (m.length % 64 + input.length) (2 ^ 32) with hlt | hge
    · obtain ⟨c', h', -⟩ := update_rep h input [] len hlen hlt
      rw [List.append_nil] at h'
      rw [h'] at hu
      exact absurd hu (by simp [Res.isUB])
    · exact hge
  · intro hge
    rw [update_wrap h input len hlen hge]
    rfl

/-- C13 refuted: one byte, then 2^32 - 1 bytes, reads outside of the input. -/
theorem md5_update_refuted : ¬ ∀ (c : Ctx) (a b : List U8), c.buffer.length = 64 → a.length < 2 ^ 32 → b.length < 2 ^ 32 →
    (updates (init c) [a, b]).isUB = false := by
  intro h
  have h1 := h wiped [0] (List.replicate (2 ^ 32 - 1) 0) (by simp [wiped]) (by simp) (by rw [List.length_replicate]; omega)
  obtain ⟨c1, e1, r1⟩ := update_rep (rep_init wiped (by simp [wiped])) [0] [] 1 rfl (by simp)
  rw [List.append_nil] at e1
  have e2 := update_wrap r1 (List.replicate (2 ^ 32 - 1) 0) (BitVec.ofNat 32 (List.replicate (2 ^ 32 - 1) (0 : U8)).length)
    (by rw [BitVec.toNat_ofNat, List.length_replicate]) (by rw [List.length_replicate]; simp)
  have e1' : update (init wiped) [0] (BitVec.ofNat 32 [(0 : U8)].length) = .ok c1 := e1
  rw [updates, e1', Res.ok_bind, updates, e2] at h1
  exact absurd h1 (by decide)

end CT.Props.MD5
