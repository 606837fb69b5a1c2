import Verif.Basic.Lockstep
import Verif.Basic.Blocks

/-!
# What every synchronous stream cipher has in common
-/

namespace CT

theorem xorBytes_take (a k : List U8) (n : Nat) : (xorBytes a k).take n = xorBytes (a.take n) (k.take n) :=
  (xorBytes_take_take a k n).symm

/-- A packet cut off after `m` bytes is encrypted to the first `m` bytes of the ciphertext. -/
def CutsOff {σ : Type} (f : PacketFn σ) (s : σ) (p : List U8) (m : Nat) : Prop :=
  ∃ s1 s2 c, runAll f s [p] = .ok (s1, [c]) ∧ runAll f s [p.take m] = .ok (s2, [c.take m])

theorem IsStream.one {σ : Type} {f : PacketFn σ} {Inv : σ → Prop} {ok : Nat → Prop}
    {ks : σ → Nat → List U8} {next : σ → Nat → σ} (h : IsStream f Inv ok ks next)
    {s : σ} (p : List U8) (hs : Inv s) (hp : ok p.length) :
    runAll f s [p] = .ok (next s p.length, [xorBytes p (ks s p.length)]) := by
  simp only [runAll, h.single p hs hp, Res.ok_bind, Res.pure_eq]

theorem IsStream.cutsOff {σ : Type} {f : PacketFn σ} {Inv : σ → Prop} {ok : Nat → Prop}
    {ks : σ → Nat → List U8} {next : σ → Nat → σ} (h : IsStream f Inv ok ks next)
    {s : σ} (p : List U8) (m : Nat) (hm : m ≤ p.length) (hs : Inv s) (hp : ok p.length) (hq : ok m)
    (hk : ks s m = (ks s p.length).take m) : CutsOff f s p m := by
  have hl : (p.take m).length = m := by rw [List.length_take]; omega
  refine ⟨next s p.length, next s m, _, h.one p hs hp, ?_⟩
  rw [h.one (p.take m) hs (by rw [hl]; exact hq), hl, hk, xorBytes_take]

/-- The ciphertexts `cs` of `ps` are received as `ds`, of the same sizes: the receiver ends in the
sender's state with `qs`, and `qs` differs from `ps` in the bits in which `ds` differs from `cs`. -/
def FlipsOnly {σ : Type} (f : PacketFn σ) (s : σ) (ps : List (List U8)) : Prop :=
  ∃ s' cs, runAll f s ps = .ok (s', cs) ∧ ∀ ds : List (List U8), ds.map List.length = cs.map List.length →
    ∃ qs, runAll f s ds = .ok (s', qs) ∧ qs.map List.length = ps.map List.length ∧
      List.zipWith xorBytes qs ps = List.zipWith xorBytes ds cs

theorem xorBytes_flip (d p k : List U8) (h1 : d.length = p.length) (h2 : p.length = k.length) :
    xorBytes (xorBytes d k) p = xorBytes d (xorBytes p k) := by
  induction p generalizing d k with
  | nil => cases d <;> simp
  | cons x p ih =>
    cases d with
    | nil => simp at h1
    | cons y d =>
      cases k with
      | nil => simp at h2
      | cons z k =>
        simp only [List.length_cons, Nat.add_right_cancel_iff] at h1 h2
        simp only [xorBytes_cons, ih d k h1 h2, List.cons.injEq, and_true]
        ac_rfl

theorem IsStream.flipsOnly {σ : Type} {f : PacketFn σ} {Inv : σ → Prop} {ok : Nat → Prop}
    {ks : σ → Nat → List U8} {next : σ → Nat → σ} (h : IsStream f Inv ok ks next) :
    ∀ (ps : List (List U8)) (s : σ), Inv s → (∀ p ∈ ps, ok p.length) → FlipsOnly f s ps := by
  intro ps
  induction ps with
  | nil =>
    intro s _ _
    refine ⟨s, [], rfl, fun ds hd => ?_⟩
    cases ds with
    | nil => exact ⟨[], rfl, rfl, rfl⟩
    | cons d ds => simp at hd
  | cons p ps ih =>
    intro s hs hp
    have hp0 := hp p (by simp)
    obtain ⟨hi, hl, -⟩ := h s p.length hs hp0
    obtain ⟨s', cs, e1, e2⟩ := ih (next s p.length) hi (fun q hq => hp q (by simp [hq]))
    refine ⟨s', xorBytes p (ks s p.length) :: cs, ?_, fun ds hd => ?_⟩
    · simp only [runAll, h.single p hs hp0, Res.ok_bind, e1, Res.pure_eq]
    · cases ds with
      | nil => simp at hd
      | cons d ds =>
        simp only [List.map_cons, List.cons.injEq, xorBytes_length, hl, Nat.min_self] at hd
        obtain ⟨qs, f1, f2, f3⟩ := e2 ds hd.2
        refine ⟨xorBytes d (ks s p.length) :: qs, ?_, ?_, ?_⟩
        · have := h.single (s := s) d hs (by rw [hd.1]; exact hp0)
          rw [hd.1] at this
          simp only [runAll, hd.1, this, Res.ok_bind, f1, Res.pure_eq]
        · simp only [List.map_cons, f2, xorBytes_length, hl, hd.1, Nat.min_self]
        · simp only [List.zipWith_cons_cons, f3, xorBytes_flip d p _ hd.1 hl.symm]

/-- Prefixes of a block keystream. -/
theorem take_blkBytes {σ : Type} (blk : σ → σ × Quad) (s : σ) (a b n : Nat) (hab : a ≤ b) (hn : n ≤ 16 * a) :
    (blkBytes blk b s).take n = (blkBytes blk a s).take n := by
  obtain ⟨k, rfl⟩ := Nat.exists_eq_add_of_le hab
  rw [blkBytes_add, List.take_append_of_le_length (by rw [blkBytes_length]; exact hn)]

end CT
