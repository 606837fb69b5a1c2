import Verif.Basic.Loops

/-!
# Sequences of packets

`runAll` is a caller that hands a sequence of packets to a packet function, each with a fresh
output buffer of the packet's size, on one cipher state.
-/

namespace CT

/-- A packet function: state, buffers, size. -/
abbrev PacketFn (σ : Type) := σ → Io → Nat → Res (σ × Io)

/-- Process the packets one after the other; the outputs are the contents of the output buffers. -/
def runAll {σ : Type} (f : PacketFn σ) : σ → List (List U8) → Res (σ × List (List U8))
  | s, [] => .ok (s, [])
  | s, p :: ps => do
    let r ← f s ⟨p, List.replicate p.length 0, false⟩ p.length
    let q ← runAll f r.1 ps
    return (q.1, r.2.out :: q.2)

/-- `f` behaves as a synchronous stream cipher on states satisfying `Inv` and sizes satisfying
`ok`: it encrypts with a keystream that depends on state and size only. -/
def IsStream {σ : Type} (f : PacketFn σ) (Inv : σ → Prop) (ok : Nat → Prop) (ks : σ → Nat → List U8)
    (next : σ → Nat → σ) : Prop :=
  ∀ s n, Inv s → ok n → Inv (next s n) ∧ (ks s n).length = n ∧
    ∀ io : Io, io.Fits n → f s io n = .ok (next s n, io.xored (ks s n))

theorem IsStream.single {σ : Type} {f : PacketFn σ} {Inv : σ → Prop} {ok : Nat → Prop}
    {ks : σ → Nat → List U8} {next : σ → Nat → σ} (h : IsStream f Inv ok ks next)
    {s : σ} (p : List U8) (hs : Inv s) (hp : ok p.length) :
    f s ⟨p, List.replicate p.length 0, false⟩ p.length =
      .ok (next s p.length, ⟨p, xorBytes p (ks s p.length), false⟩) := by
  obtain ⟨_, hl, hf⟩ := h s p.length hs hp
  rw [hf _ ⟨by simp [Io.src], by simp⟩]
  simp [Io.xored, Io.src, hl]

/-- A receiver starting in the sender's state recovers every packet, and both end in the same
state. -/
theorem IsStream.runAll_round_trip {σ : Type} {f : PacketFn σ} {Inv : σ → Prop} {ok : Nat → Prop}
    {ks : σ → Nat → List U8} {next : σ → Nat → σ} (h : IsStream f Inv ok ks next) :
    ∀ (ps : List (List U8)) (s : σ), Inv s → (∀ p ∈ ps, ok p.length) →
    ∃ s' cs, runAll f s ps = .ok (s', cs) ∧ cs.map List.length = ps.map List.length ∧
      runAll f s cs = .ok (s', ps) := by
  intro ps
  induction ps with
  | nil => intro s _ _; exact ⟨s, [], rfl, rfl, rfl⟩
  | cons p ps ih =>
    intro s hs hp
    have hp0 := hp p (by simp)
    obtain ⟨hi, hl, _⟩ := h s p.length hs hp0
    obtain ⟨s', cs, e1, e2, e3⟩ := ih (next s p.length) hi (fun q hq => hp q (by simp [hq]))
    have hcl : (xorBytes p (ks s p.length)).length = p.length := by simp [hl]
    refine ⟨s', xorBytes p (ks s p.length) :: cs, ?_, ?_, ?_⟩
    · simp only [runAll, h.single p hs hp0, Res.ok_bind, e1, Res.pure_eq]
    · simp [e2, hl]
    · have := h.single (s := s) (xorBytes p (ks s p.length)) hs (by rw [hcl]; exact hp0)
      rw [hcl] at this
      simp only [runAll, hcl, this, Res.ok_bind, e3, Res.pure_eq]
      rw [xorBytes_xorBytes _ _ (by omega)]

/-- A caller's command: load a new IV (or similar) or process a packet. -/
inductive Cmd where
  | load (iv : List U8)
  | packet (p : List U8)
  deriving DecidableEq

/-- Size of the packet, `none` for a load: what the receiver has to know. -/
def Cmd.shape : Cmd → Option Nat
  | .load _ => none
  | .packet p => some p.length

/-- Process a sequence of commands; the result has the packets replaced by the outputs. -/
def runCmds {σ : Type} (f : PacketFn σ) (ld : σ → List U8 → σ) : σ → List Cmd → Res (σ × List Cmd)
  | s, [] => .ok (s, [])
  | s, .load iv :: cs => do
    let q ← runCmds f ld (ld s iv) cs
    return (q.1, .load iv :: q.2)
  | s, .packet p :: cs => do
    let r ← f s ⟨p, List.replicate p.length 0, false⟩ p.length
    let q ← runCmds f ld r.1 cs
    return (q.1, .packet r.2.out :: q.2)

/-- The packet sizes of a command sequence all satisfy `ok`. -/
def Cmd.sizesOk (ok : Nat → Prop) : Cmd → Prop
  | .load _ => True
  | .packet p => ok p.length

theorem IsStream.runCmds_round_trip {σ : Type} {f : PacketFn σ} {ld : σ → List U8 → σ} {Inv : σ → Prop}
    {ok : Nat → Prop} {ks : σ → Nat → List U8} {next : σ → Nat → σ} (h : IsStream f Inv ok ks next)
    (hld : ∀ s iv, Inv s → Inv (ld s iv)) :
    ∀ (ps : List Cmd) (s : σ), Inv s → (∀ p ∈ ps, p.sizesOk ok) →
    ∃ s' cs, runCmds f ld s ps = .ok (s', cs) ∧ cs.map Cmd.shape = ps.map Cmd.shape ∧
      runCmds f ld s cs = .ok (s', ps) := by
  intro ps
  induction ps with
  | nil => intro s _ _; exact ⟨s, [], rfl, rfl, rfl⟩
  | cons p ps ih =>
    intro s hs hp
    have hp0 := hp p (by simp)
    cases p with
    | load iv =>
      obtain ⟨s', cs, e1, e2, e3⟩ := ih (ld s iv) (hld s iv hs) (fun q hq => hp q (by simp [hq]))
      exact ⟨s', .load iv :: cs, by simp [runCmds, e1], by simp [e2], by simp [runCmds, e3]⟩
    | packet p =>
      have hp0 : ok p.length := hp0
      obtain ⟨hi, hl, _⟩ := h s p.length hs hp0
      obtain ⟨s', cs, e1, e2, e3⟩ := ih (next s p.length) hi (fun q hq => hp q (by simp [hq]))
      have hcl : (xorBytes p (ks s p.length)).length = p.length := by simp [hl]
      refine ⟨s', .packet (xorBytes p (ks s p.length)) :: cs, ?_, ?_, ?_⟩
      · simp only [runCmds, h.single p hs hp0, Res.ok_bind, e1, Res.pure_eq]
      · simp [e2, hl, Cmd.shape]
      · have := h.single (s := s) (xorBytes p (ks s p.length)) hs (by rw [hcl]; exact hp0)
        rw [hcl] at this
        simp only [runCmds, hcl, this, Res.ok_bind, e3, Res.pure_eq]
        rw [xorBytes_xorBytes _ _ (by omega)]

end CT
