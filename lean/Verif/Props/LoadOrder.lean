import Verif.Props.Reinit
import Verif.Props.Sosemanuk
import Verif.Props.SosemanukKeys
import Verif.Props.Rabbit

/-!
# The order in which key and IV are loaded (C160)

AES-CTR, Rabbit and Sosemanuk have one function for the key and one for the IV.
-/

namespace CT.Props.LoadOrder

/-! ### Rabbit -/

/-- **C160**, Rabbit: an IV that is loaded before the key has no effect: the object is that of the key without IV, whatever was in it. -/
theorem rabbit_iv_first (cs : Rabbit.State) (key iv : List U8) : Rabbit.loadKeyFrom (Rabbit.loadIv cs iv) key = Rabbit.loadKey key :=
  Reinit.reinit_rabbit _ key

/-! ### Sosemanuk -/

open CT.Sosemanuk

theorem block_put (cs : State) (rk : List U32) : block { cs with rk := rk } = ({ (block cs).1 with rk := rk }, (block cs).2) := rfl

theorem blkState_put (n : Nat) (cs : State) (rk : List U32) :
    blkState block n { cs with rk := rk } = { blkState block n cs with rk := rk } := by
  induction n generalizing cs with
  | zero => rfl
  | succ n ih => rw [blkState, blkState, block_put, ih]

theorem blkBytes_put (n : Nat) (cs : State) (rk : List U32) : blkBytes block n { cs with rk := rk } = blkBytes block n cs := by
  induction n generalizing cs with
  | zero => rfl
  | succ n ih => rw [blkBytes, blkBytes, block_put, ih]

/-- What a caller gets: the packets that come out, without the object. -/
def outputs {σ : Type} (f : PacketFn σ) (cs : σ) (ps : List (List U8)) : Res (List (List U8)) := do return (← runAll f cs ps).2

theorem packets_put : ∀ (ps : List (List U8)) (cs : State) (rk : List U32),
    ∃ s out, runAll processPacket cs ps = .ok (s, out) ∧ runAll processPacket { cs with rk := rk } ps = .ok ({ s with rk := rk }, out)
  | [], cs, rk => ⟨cs, [], rfl, rfl⟩
  | p :: ps, cs, rk => by
    have hf : (⟨p, List.replicate p.length 0, false⟩ : Io).Fits p.length := ⟨Nat.le_refl _, by simp⟩
    obtain ⟨s, out, h1, h2⟩ := packets_put ps (blkState block (p.length / 16 + 1) cs) rk
    refine ⟨s, ((⟨p, List.replicate p.length 0, false⟩ : Io).xored ((blkBytes block (p.length / 16 + 1) cs).take p.length)).out :: out, ?_, ?_⟩
    · rw [runAll, processPacket_eq _ _ _ hf, Res.ok_bind]
      dsimp only
      rw [h1]
      rfl
    · rw [runAll, processPacket_eq _ _ _ hf, Res.ok_bind]
      dsimp only
      rw [blkState_put, h2, blkBytes_put]
      rfl

/-- **C160**, Sosemanuk: loading a key, whichever, changes nothing for the packets that follow, until an IV is loaded. -/
theorem sosemanuk_key_no_effect (cs cs' : State) (key : List U8) (size : Int) (h : loadKey cs key size = .ok (some cs')) (ps : List (List U8)) :
    outputs processPacket cs' ps = outputs processPacket cs ps := by
  rw [loadKey] at h
  obtain ⟨r, -, h⟩ := Res.bind_eq_ok h
  cases r with
  | none => cases Res.ok_inj.mp h
  | some rk =>
    obtain rfl : { cs with rk := rk } = cs' := Option.some.inj (Res.ok_inj.mp h)
    obtain ⟨s, out, h1, h2⟩ := packets_put ps cs rk
    rw [outputs, outputs, h1, h2]
    rfl

example : ∃ cs', loadKey zeroState (List.replicate 32 1) 32 = .ok (some cs') := ⟨_, rfl⟩

/-- **C160**, Sosemanuk with the IV loaded first: everybody who knows what was in the object (zeros, if it is a static one) and the IV opens
the packets, without the key. -/
theorem sosemanuk_iv_first (cs c1 c2 : State) (iv key : List U8) (size : Int) (_ : loadIv cs iv = .ok c1)
    (hk : loadKey c1 key size = .ok (some c2)) (ps : List (List U8)) :
    ∃ cts, outputs processPacket c2 ps = .ok cts ∧ outputs processPacket c1 cts = .ok ps := by
  obtain ⟨s', cts, e1, -, e3⟩ := Props.Sosemanuk.isStream.runAll_round_trip ps c1 trivial (fun _ _ => trivial)
  refine ⟨cts, ?_, by rw [outputs, e3]; rfl⟩
  rw [sosemanuk_key_no_effect c1 c2 key size hk, outputs, e1]
  rfl

/-- An object of zeros. -/
def zeroState : State := ⟨List.replicate 100 0, 0, 0, 0, 0, 0, 0, 0, 0, 0, 0, 0, 0⟩

/-- The calls succeed: an object of zeros, an IV and then a key. -/
example : ∃ c1 c2, loadIv zeroState (List.replicate 16 0) = .ok c1 ∧ loadKey c1 (List.replicate 32 1) 32 = .ok (some c2) := ⟨_, _, rfl, rfl⟩

/-! ### AES-CTR -/

/-- **C160**, what holds: with AES-CTR the order does not matter. -/
theorem load_order_partial (cs : AES.State) (hr : cs.rk.length = 44) (key nonce : List U8) :
    AES.loadKeyFrom (AES.ctrLoadIv cs nonce) key = AES.ctrLoadIv (AES.loadKeyFrom cs key) nonce ∧
    (AES.loadKeyFrom (AES.ctrLoadIv cs nonce) key).rk = AES.keyExpansion key := by
  obtain ⟨h1, h2⟩ := Reinit.reinit_aesCtr cs hr key nonce
  exact ⟨h2, by rw [h2, h1]⟩

example : (⟨⟨0, 0, 0, 0⟩, List.replicate 44 0⟩ : AES.State).rk.length = 44 := rfl

/-! ### Refutation -/

/-- **C160** refuted for Rabbit: key and IV of zeros. -/
theorem load_order_rabbit_refuted : ¬ ∀ (cs : Rabbit.State) (key iv : List U8) (ps : List (List U8)), key.length = 16 → iv.length = 8 →
    outputs Rabbit.processPacket (Rabbit.loadKeyFrom (Rabbit.loadIv cs iv) key) ps =
      outputs Rabbit.processPacket (Rabbit.loadIv (Rabbit.loadKeyFrom cs key) iv) ps := by
  intro h
  have h1 := h (Rabbit.loadKey (List.replicate 16 0)) (List.replicate 16 0) (List.replicate 8 0) [List.replicate 16 0] (by decide) (by decide)
  rw [rabbit_iv_first, Reinit.reinit_rabbit] at h1
  revert h1
  decide +kernel

/-- A session of one packet with the calls in the right order and in the wrong one. -/
def right (cs : State) (key iv p : List U8) : Res (Option (List (List U8))) := do
  match ← loadKey cs key key.length with
  | none => .ok none
  | some c => do
    let c ← loadIv c iv
    return some (← outputs processPacket c [p])
def wrong (cs : State) (key iv p : List U8) : Res (Option (List (List U8))) := do
  let c ← loadIv cs iv
  match ← loadKey c key key.length with
  | none => .ok none
  | some c => return some (← outputs processPacket c [p])

/-- **C160** refuted for Sosemanuk. -/
theorem load_order_sosemanuk_refuted : ¬ ∀ (cs : State) (key iv p : List U8), key.length = 32 → iv.length = 16 →
    right cs key iv p = wrong cs key iv p := by
  intro h
  have h1 := h zeroState (List.replicate 32 1) (List.replicate 16 0) (List.replicate 16 0) (by decide) (by decide)
  revert h1
  decide +kernel

/-- In the wrong order two keys and a known keystream: both sessions open with the object of zeros. -/
example : wrong zeroState (List.replicate 32 1) (List.replicate 16 0) [1, 2, 3] = wrong zeroState (List.replicate 32 2) (List.replicate 16 0) [1, 2, 3] := by
  decide +kernel

end CT.Props.LoadOrder
