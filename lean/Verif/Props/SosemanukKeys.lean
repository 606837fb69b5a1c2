import Verif.Props.Serpent
import Verif.Props.Sosemanuk

/-!
# Sosemanuk: which keys are equivalent (C156)
-/

namespace CT.Props.SosemanukKeys
open CT.Sosemanuk CT.Props.Sosemanuk

/-- A session as a caller runs it: key, IV, then packets and further IVs; `none` is `exit(1)`. -/
def run (cs : State) (key iv : List U8) (cmds : List Cmd) : Res (Option (State × List Cmd)) := do
  match ← loadKey cs key key.length with
  | none => .ok none
  | some cs => do
    let r ← session cs (.load iv :: cmds)
    return some r

/-- `b` is the key of 32 bytes that a shorter key `a` is extended to. -/
def Extends (a b : List U8) : Prop := a.length < 32 ∧ b = a ++ 0x80 :: List.replicate (31 - a.length) 0

/-- **C156**, exactly: two keys, loaded into whatever objects, give the same round keys if and only if they are equal or one is the other
extended. -/
theorem sosemanuk_keys_exact (c d : State) (a b : List U8) (ha : a.length ≤ 32) (hb : b.length ≤ 32) :
    ∃ c' d', loadKey c a a.length = .ok (some c') ∧ loadKey d b b.length = .ok (some d') ∧
      (c'.rk = d'.rk ↔ a = b ∨ Extends a b ∨ Extends b a) := by
  refine ⟨_, _, loadKey_eq c a ha, loadKey_eq d b hb, ?_⟩
  have h := Props.Serpent.serpent_collisions_exact a b ha hb
  rw [Serpent.keySchedule_eq a ha, Serpent.keySchedule_eq b hb] at h
  simp only [Res.ok_inj, Option.some.injEq] at h
  exact h

example (c d : State) := sosemanuk_keys_exact c d [1, 2, 3] ([1, 2, 3, 1] ++ List.replicate 28 0) (by decide) (by decide)

/-- **C156**, the part that holds: among the keys of 32 bytes, and among the shorter ones of whatever lengths, no two give the same round
keys. -/
theorem sosemanuk_keys_partial (c d : State) (a b : List U8) (h : (a.length < 32 ∧ b.length < 32) ∨ (a.length = 32 ∧ b.length = 32))
    (hab : a ≠ b) : ∃ c' d', loadKey c a a.length = .ok (some c') ∧ loadKey d b b.length = .ok (some d') ∧ c'.rk ≠ d'.rk := by
  obtain ⟨c', d', h1, h2, h3⟩ := sosemanuk_keys_exact c d a b (by omega) (by omega)
  refine ⟨c', d', h1, h2, fun e => ?_⟩
  have len : ∀ x y : List U8, Extends x y → x.length < 32 ∧ y.length = 32 := by
    rintro x y ⟨e1, e2⟩
    refine ⟨e1, ?_⟩
    rw [e2, List.length_append, List.length_cons, List.length_replicate]
    omega
  rcases h3.1 e with e | e | e
  · exact hab e
  · have := len _ _ e; omega
  · have := len _ _ e; omega

example (c d : State) := sosemanuk_keys_partial c d [1, 2, 3] [1, 2, 3, 4] (.inl (by decide)) (by decide)

/-- **C156 is false:** every key of fewer than 32 bytes and the key of 32 bytes that it is extended to give the same session, whatever IVs
and packets, and whatever was in the objects. -/
theorem sosemanuk_equivalent_keys (a : List U8) (ha : a.length < 32) :
    ∃ b : List U8, b.length = 32 ∧ a ≠ b ∧ ∀ (c d : State) (iv : List U8) (cmds : List Cmd), run c a iv cmds = run d b iv cmds := by
  have hl : (a ++ 0x80 :: List.replicate (31 - a.length) 0 : List U8).length = 32 := by
    rw [List.length_append, List.length_cons, List.length_replicate]; omega
  refine ⟨a ++ 0x80 :: List.replicate (31 - a.length) 0, hl, fun e => ?_, ?_⟩
  · have := congrArg List.length e
    omega
  · intro c d iv cmds
    obtain ⟨c', d', h1, h2, h3⟩ := sosemanuk_keys_exact c d a _ (by omega) (by rw [hl]; exact Nat.le_refl _)
    have e := h3.2 (.inr (.inl ⟨ha, rfl⟩))
    have hi : loadIv c' iv = loadIv d' iv := by rw [loadIv, loadIv, e]
    simp only [run, h1, h2, Res.ok_bind, session, hi]

example := sosemanuk_equivalent_keys [1, 2, 3] (by decide)

theorem sosemanuk_keys_refuted : ¬ ∀ (c : State) (a b iv : List U8), a.length ≤ 32 → b.length ≤ 32 → iv.length = 16 → a ≠ b →
    ∃ cmds : List Cmd, (∀ v, Cmd.load v ∈ cmds → v.length = 16) ∧ run c a iv cmds ≠ run c b iv cmds := by
  intro h
  obtain ⟨b, hb, hab, hr⟩ := sosemanuk_equivalent_keys (List.replicate 16 1) (by decide)
  obtain ⟨cmds, -, hc⟩ := h someState _ b iv0 (by decide) (by omega) (by decide) hab
  exact hc (hr _ _ _ cmds)

/-- Non-trivial instance: a key of 16 bytes, and one of two bytes against one of three. -/
example : (List.replicate 16 (1 : U8)).length < 32 ∧ ([1, 2] : List U8).length < 32 ∧ ([1, 2, 0] : List U8).length < 32 ∧
    ([1, 2] : List U8) ≠ [1, 2, 0] := by decide

end CT.Props.SosemanukKeys
