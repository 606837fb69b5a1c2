import Verif.Props.Sosemanuk
import Verif.Basic.Stream
import Verif.Model.ChaCha
import Verif.Model.HC128
import Verif.Model.Rabbit
import Verif.Model.AES
import Verif.Model.DES

/-!
# Packets of size zero (C141)

A call with size zero, or a negative size where the size is an `int`, does nothing: memory and session are as before.  The
buffers `io` are arbitrary, so they may be empty: no byte is read or written.
-/

namespace CT.Props.Empty

/-- C141 for ChaCha. -/
theorem chacha_empty (rounds : Nat) (cs : ChaCha.State) (io : Io) : ChaCha.processPacket rounds cs io 0 = .ok (cs, io) := rfl

/-- C141 for HC-128. -/
theorem hc128_empty (cs : HC128.State) (io : Io) : HC128.processPacket cs io 0 = .ok (cs, io) := rfl

/-- C141 for Rabbit. -/
theorem rabbit_empty (cs : Rabbit.State) (io : Io) : Rabbit.processPacket cs io 0 = .ok (cs, io) := rfl

/-- C141 for AES-CTR, the three builds. -/
theorem aes_ctr_empty (cs : AES.State) (io : Io) (size : Int) (h : size ≤ 0) : AES.ctrPacket cs io size = .ok (cs, io) ∧
    AES.ctrPacketX86 cs io size = .ok (cs, io) ∧ AES.ctrPacketArm cs io size = .ok (cs, io) := by
  have e : size.toNat = 0 := by omega
  refine ⟨?_, ?_, ?_⟩
  · rw [AES.ctrPacket, AES.ctrWith, e]; rfl
  · rw [AES.ctrPacketX86, AES.ctrWith, e]; rfl
  · rw [AES.ctrPacketArm, AES.ctrWith, e]; rfl

example := aes_ctr_empty ⟨⟨1, 2, 3, 4⟩, []⟩ ⟨[1], [2], false⟩ (-3) (by decide)

/-- C141 for AES-CFB, the three builds and both directions. -/
theorem aes_cfb_empty (v : AES.CfbVariant) (mode : Bool) (cs : AES.State) (io : Io) (size : Int) (h : size ≤ 0) :
    AES.cfbPacket v mode cs io size = .ok (cs, io) := by
  have e : size.toNat = 0 := by omega
  rw [AES.cfbPacket, e]
  rfl

example := aes_cfb_empty AES.x86 true ⟨⟨1, 2, 3, 4⟩, []⟩ ⟨[1], [2], false⟩ (-3) (by decide)

/-- C141 for Serpent: no word of output. -/
theorem serpent_empty (rk : List U32) (inp : List U8) : Serpent.processPacket rk inp 0 = .ok [] := rfl

/-- C141 for DES; the counter mode reads its nonce. -/
theorem des_empty (rk : List U32) (a : DES.Arrs) (n0 n1 n2 : U32) (ns : List U32) : DES.processPacketEcb rk a 0 = .ok a ∧
    DES.processPacketCtr rk a (n0 :: n1 :: n2 :: ns) 0 = .ok a := ⟨rfl, rfl⟩

/-- C141 for Sosemanuk, what the code does: memory is as before, but sixteen bytes of keystream are lost. -/
theorem sosemanuk_empty_partial (cs : Sosemanuk.State) (io : Io) :
    Sosemanuk.processPacket cs io 0 = .ok ((Sosemanuk.block cs).1, io) := rfl

/-! ### Sessions with empty packets -/

/-- In a session the empty packets may be left out: the other packets are processed in the same way (or the behaviour is
undefined in the same way), and the session ends in the same state. -/
def EmptyLeftOut {σ : Type} (f : PacketFn σ) : Prop := ∀ (s : σ) (ps : List (List U8)),
  runAll f s (ps.filter fun p => !p.isEmpty) =
    (runAll f s ps).bind fun r => .ok (r.1, ((ps.zip r.2).filter fun x => !x.1.isEmpty).map Prod.snd)

theorem emptyLeftOut {σ : Type} (f : PacketFn σ) (h : ∀ s io, f s io 0 = .ok (s, io)) : EmptyLeftOut f := by
  intro s ps
  induction ps generalizing s with
  | nil => rfl
  | cons p ps ih =>
    cases p with
    | nil =>
      have e : runAll f s ([] :: ps) = (runAll f s ps).bind fun q => .ok (q.1, [] :: q.2) := by
        rw [runAll, List.length_nil, h]; rfl
      rw [e]
      have e' : (([] : List U8) :: ps).filter (fun p => !p.isEmpty) = ps.filter (fun p => !p.isEmpty) := rfl
      rw [e', ih s]
      cases runAll f s ps <;> rfl
    | cons x p =>
      have e' : ((x :: p) :: ps).filter (fun p => !p.isEmpty) = (x :: p) :: ps.filter (fun p => !p.isEmpty) := rfl
      rw [e', runAll, runAll]
      cases f s ⟨x :: p, List.replicate (x :: p).length 0, false⟩ (x :: p).length with
      | ub u => rfl
      | ok r =>
        simp only [Res.ok_bind]
        rw [ih r.1]
        cases runAll f r.1 ps <;> rfl

/-- C141 for sessions. -/
theorem sessions_empty (rounds : Nat) (v : AES.CfbVariant) (mode : Bool) :
    EmptyLeftOut (fun cs io n => ChaCha.processPacket rounds cs io (BitVec.ofNat 64 n)) ∧ EmptyLeftOut HC128.processPacket ∧
    EmptyLeftOut Rabbit.processPacket ∧ EmptyLeftOut (fun cs io n => AES.ctrPacket cs io n) ∧
    EmptyLeftOut (fun cs io n => AES.ctrPacketX86 cs io n) ∧ EmptyLeftOut (fun cs io n => AES.ctrPacketArm cs io n) ∧
    EmptyLeftOut (fun cs io n => AES.cfbPacket v mode cs io n) :=
  ⟨emptyLeftOut _ (fun s io => chacha_empty rounds s io), emptyLeftOut _ hc128_empty, emptyLeftOut _ rabbit_empty,
    emptyLeftOut _ (fun s io => (aes_ctr_empty s io 0 (by omega)).1), emptyLeftOut _ (fun s io => (aes_ctr_empty s io 0 (by omega)).2.1),
    emptyLeftOut _ (fun s io => (aes_ctr_empty s io 0 (by omega)).2.2), emptyLeftOut _ (fun s io => aes_cfb_empty v mode s io 0 (by omega))⟩

set_option maxRecDepth 10000 in
/-- C141 fails for Sosemanuk: after an empty packet the next one is encrypted differently. -/
theorem sosemanuk_empty_refuted : ¬ EmptyLeftOut Sosemanuk.processPacket := by
  intro h
  have h := h Sosemanuk.someState [[], [0]]
  have e0 : ([[], [0]] : List (List U8)).filter (fun p => !p.isEmpty) = [[0]] := rfl
  obtain ⟨t, x, y, e1, e2, e3⟩ := Sosemanuk.sosemanuk_continuation_exact Sosemanuk.someState [] [0]
  rw [e0, IsStream.one Sosemanuk.isStream [0] trivial trivial, e1] at h
  have h2 : xorBytes [0] ((CT.blkBytes CT.Sosemanuk.block (([0] : List U8).length / 16 + 1) Sosemanuk.someState).take 1) = y :=
    (List.cons.inj (Prod.mk.inj (Res.ok_inj.mp h)).2).1
  rw [e3] at h2
  exact absurd h2 (by decide +kernel)

/-- Instances: buffers of no bytes. -/
example (cs : HC128.State) : HC128.processPacket cs ⟨[], [], false⟩ 0 = .ok (cs, ⟨[], [], false⟩) := rfl
example : (-5 : Int) ≤ 0 := by decide
example : ([[1, 2], [], [3], []] : List (List U8)).filter (fun p => !p.isEmpty) = [[1, 2], [3]] := by decide

end CT.Props.Empty
