import Verif.Model.RabbitDebug
import Verif.Props.Programs
import Verif.Proof.RabbitPeriod

/-!
# Rabbit's debug build shows the key setup of RFC 4503 (C135)
-/

namespace CT.Props.RabbitDebug
open CT.Programs CT.Props.Programs
open CT.Spec.Hex (denotes noLower)

/-- The lines for one inner state: carry bit, state variables, counters, eight hexadecimal digits each. -/
def stateLines (b : Nat) (X C : Vector U32 8) : Printout := (s!"b = {b}", []) ::
  (((List.range 8).map fun j => (s!"X{j} = ", hexWord (X.toList.getD j 0))) ++
    ((List.range 8).map fun j => (s!"C{j} = ", hexWord (C.toList.getD j 0))))

/-- The lines for the sixteen key bytes. -/
def keyLines (key : List U8) : Printout := (List.range 8).map fun j =>
  (s!"Key {j} = ", Spec.Hex.encode [key.getD (2 * j) 0, key.getD (2 * j + 1) 0])

/-- The lines of the first loop: for even `j` the two key pieces and the bytes of `X[j]` in memory, which are the
second piece and then the first. -/
def loopLines (key : List U8) (j : Nat) : Printout :=
  if j % 2 ≠ 0 then [(s!"j = {j} | j + 5 mod 8 = {(j + 5) % 8}", [])]
  else [(s!"j = {j}", []), ("First: ", Spec.Hex.encode [key.getD (2 * j + 2) 0, key.getD (2 * j + 3) 0]),
    (" | Second: ", Spec.Hex.encode [key.getD (2 * j) 0, key.getD (2 * j + 1) 0]),
    (s!"X[{j}] = ", Spec.Hex.encode [key.getD (2 * j) 0, key.getD (2 * j + 1) 0, key.getD (2 * j + 2) 0,
      key.getD (2 * j + 3) 0])]

/-- Lines for a specification state. -/
def specLines (s : Spec.Rabbit.St) : Printout := stateLines s.b s.X s.C

/-- What the program should print for a key: the key, the pieces, the expanded key, the states after the four
iterations, and the master state of RFC 4503. -/
def rfcLines (key : List U8) : Printout :=
  let s := Spec.Rabbit.keyExpand (Spec.Rabbit.leNat key)
  keyLines key ++ (" Hello ", []) :: ((List.range 8).flatMap (loopLines key) ++ specLines s ++
    ((List.range 4).flatMap fun i => (s!"***** ROUND {i + 1} *****", []) :: specLines (Spec.Rabbit.iters (i + 1) s)) ++
    ("After final XOR", []) :: specLines (Spec.Rabbit.keySetup (Spec.Rabbit.leNat key)))

theorem state_lines (junk : Nat → Nat → U8) (cs : Rabbit.State) :
    rabbitStateLines junk cs = .ok (stateLines cs.carry.toNat cs.X cs.C) := by
  rw [rabbitStateLines, rabbit_print_state, Res.ok_bind]; rfl

theorem debug_rounds (junk : Nat → Nat → U8) (n i : Nat) (cs : Rabbit.State) :
    rabbitDebugRounds junk n i cs = .ok (Rabbit.orb n cs, (List.range' i n).flatMap fun k =>
        (s!"***** ROUND {k + 1} *****", []) :: stateLines (Rabbit.orb (k + 1 - i) cs).carry.toNat
          (Rabbit.orb (k + 1 - i) cs).X (Rabbit.orb (k + 1 - i) cs).C) := by
  induction n generalizing i cs with
  | zero => rfl
  | succ n ih =>
    rw [rabbitDebugRounds]
    dsimp only
    rw [state_lines, Res.ok_bind, ih (i + 1), Res.ok_bind, Res.pure_eq, List.range'_succ, List.flatMap_cons]
    have e1 : i + 1 - i = 1 := by omega
    rw [e1]
    refine congrArg (fun l => Res.ok (Rabbit.orb n (Rabbit.update cs), (s!"***** ROUND {i + 1} *****", []) ::
      (stateLines (Rabbit.update cs).carry.toNat (Rabbit.update cs).X (Rabbit.update cs).C ++ l))) ?_
    dsimp only
    rw [List.flatMap_def, List.flatMap_def]
    congr 1
    apply List.map_congr_left
    intro k hk
    obtain ⟨m, _, rfl⟩ := List.mem_range'.1 hk
    have e2 : i + 1 + 1 * m + 1 - i = (i + 1 + 1 * m + 1 - (i + 1)) + 1 := by omega
    rw [e2, Rabbit.orb]

theorem two_bytes (key : List U8) (i : Nat) (h : i + 2 ≤ key.length) :
    (key.drop i).take 2 = [key.getD i 0, key.getD (i + 1) 0] := by
  rw [List.drop_eq_getElem_cons (by omega), List.drop_eq_getElem_cons (by omega), List.take_succ_cons, List.take_succ_cons]
  simp [List.getD_eq_getElem?_getD, show i < key.length by omega, show i + 1 < key.length by omega]

theorem enc2 (junk : Nat → Nat → U8) (k : Nat) (bs : List U8) (h : bs.length = 2) :
    ∃ t, Hex.encode (arr junk k 5) bs 2 = .ok t ∧ cString t = .ok (Spec.Hex.encode bs) := by
  obtain ⟨t, p1, p2, -⟩ := print_arr junk k 2 bs h (by omega)
  exact ⟨t, p1, p2⟩

theorem enc4 (junk : Nat → Nat → U8) (k : Nat) (bs : List U8) (h : bs.length = 4) :
    ∃ t, Hex.encode (arr junk k 9) bs 4 = .ok t ∧ cString t = .ok (Spec.Hex.encode bs) := by
  obtain ⟨t, p1, p2, -⟩ := print_arr junk k 4 bs h (by omega)
  exact ⟨t, p1, p2⟩

theorem word_bytes (p : List U8) (j : Nat) :
    bytesLE32 (Rabbit.u16 p (j + 1) <<< 16 ||| Rabbit.u16 p j) =
      [p.getD (2 * j) 0, p.getD (2 * j + 1) 0, p.getD (2 * j + 2) 0, p.getD (2 * j + 3) 0] := by
  have e : (Rabbit.u16 p (j + 1) <<< 16 ||| Rabbit.u16 p j) =
      le32 (p.getD (2 * j) 0) (p.getD (2 * j + 1) 0) (p.getD (2 * j + 2) 0) (p.getD (2 * j + 3) 0) := by
    apply BitVec.eq_of_toNat_eq
    rw [Rabbit.cat16_eq, Rabbit.bits16, Rabbit.bits16, Spec.Rabbit.cat16, BitVec.toNat_ofNat, le32_toNat]
    have h1 : 2 * (j + 1) = 2 * j + 2 := by omega
    have h2 : 2 * (j + 1) + 1 = 2 * j + 3 := by omega
    rw [h2, h1]
    generalize p.getD (2 * j) 0 = a
    generalize p.getD (2 * j + 1) 0 = b
    generalize p.getD (2 * j + 2) 0 = c
    generalize p.getD (2 * j + 3) 0 = d
    have := a.isLt; have := b.isLt; have := c.isLt; have := d.isLt
    omega
  rw [e]; exact bytesLE32_le32 _ _ _ _

theorem expand_X (key : List U8) (j : Nat) (hj : j < 8) (he : j % 2 = 0) :
    (Rabbit.loadKeyExpand key).X.toList.getD j 0 = (Rabbit.u16 key (j + 1) <<< 16 ||| Rabbit.u16 key j) := by
  have e : (Rabbit.loadKeyExpand key).X = Vector.ofFn fun j : Fin 8 =>
    if j.val % 2 ≠ 0 then Rabbit.u16 key ((j + 5) % 8) <<< 16 ||| Rabbit.u16 key ((j + 4) % 8)
    else Rabbit.u16 key ((j + 1) % 8) <<< 16 ||| Rabbit.u16 key j := rfl
  rw [e, List.getD_eq_getElem?_getD, List.getElem?_eq_getElem (by simpa using hj)]
  have : (j + 1) % 8 = j + 1 := by omega
  simp [he, this]

theorem debug_loop (junk : Nat → Nat → U8) (key : List U8) (h : key.length = 16) (n j : Nat) (hj : j + n = 8) :
    rabbitDebugLoop junk key (Rabbit.loadKeyExpand key).X.toList n j = .ok ((List.range' j n).flatMap (loopLines key)) := by
  induction n generalizing j with
  | zero => rfl
  | succ n ih =>
    have i := ih (j + 1) (by omega)
    rw [rabbitDebugLoop, List.range'_succ, List.flatMap_cons, loopLines]
    by_cases e : j % 2 ≠ 0
    · rw [if_pos e, if_pos e, i, Res.ok_bind, Res.pure_eq]; rfl
    · rw [if_neg e, if_neg e]
      have m : (j + 1) % 8 = j + 1 := by omega
      have m2 : 2 * (j + 1) = 2 * j + 2 := by omega
      obtain ⟨t1, a1, b1⟩ := enc2 junk j [key.getD (2 * j + 2) 0, key.getD (2 * j + 2 + 1) 0] rfl
      obtain ⟨t2, a2, b2⟩ := enc2 junk (j + 8) [key.getD (2 * j) 0, key.getD (2 * j + 1) 0] rfl
      obtain ⟨t3, a3, b3⟩ := enc4 junk (j + 16) [key.getD (2 * j) 0, key.getD (2 * j + 1) 0, key.getD (2 * j + 2) 0,
        key.getD (2 * j + 3) 0] rfl
      rw [m, m2, two_bytes key (2 * j + 2) (by omega), a1, Res.ok_bind, two_bytes key (2 * j) (by omega), a2, Res.ok_bind, b1,
        Res.ok_bind, b2, Res.ok_bind, expand_X key j (by omega) (by omega), word_bytes, a3, Res.ok_bind, b3, Res.ok_bind, i,
        Res.ok_bind, Res.pure_eq]
      rfl

/-- The printed lines in general, in terms of the states of the code. -/
def codeLines (key : List U8) : Printout :=
  let s := Rabbit.loadKeyExpand key
  keyLines key ++ (" Hello ", []) :: ((List.range 8).flatMap (loopLines key) ++ stateLines s.carry.toNat s.X s.C ++
    ((List.range 4).flatMap fun i => (s!"***** ROUND {i + 1} *****", []) ::
      stateLines (Rabbit.orb (i + 1) s).carry.toNat (Rabbit.orb (i + 1) s).X (Rabbit.orb (i + 1) s).C) ++
    ("After final XOR", []) :: stateLines (Rabbit.loadKey key).carry.toNat (Rabbit.loadKey key).X (Rabbit.loadKey key).C)

theorem load_debug (junk : Nat → Nat → U8) (key : List U8) (h : key.length = 16) :
    rabbitLoadKeyDebug junk key = .ok (Rabbit.loadKey key,
      (List.range 8).flatMap (loopLines key) ++
      stateLines (Rabbit.loadKeyExpand key).carry.toNat (Rabbit.loadKeyExpand key).X (Rabbit.loadKeyExpand key).C ++
      ((List.range 4).flatMap fun i => (s!"***** ROUND {i + 1} *****", []) ::
        stateLines (Rabbit.orb (i + 1) (Rabbit.loadKeyExpand key)).carry.toNat (Rabbit.orb (i + 1) (Rabbit.loadKeyExpand key)).X
          (Rabbit.orb (i + 1) (Rabbit.loadKeyExpand key)).C) ++
      ("After final XOR", []) :: stateLines (Rabbit.loadKey key).carry.toNat (Rabbit.loadKey key).X (Rabbit.loadKey key).C) := by
  unfold rabbitLoadKeyDebug
  dsimp only
  rw [debug_loop junk key h 8 0 rfl, Res.ok_bind, state_lines, Res.ok_bind, debug_rounds, Res.ok_bind]
  dsimp only
  rw [state_lines, Res.ok_bind, Res.pure_eq]
  have e : Rabbit.orb 4 (Rabbit.loadKeyExpand key) = Rabbit.update4 (Rabbit.loadKeyExpand key) := by
    rw [Rabbit.update4]; simp only [Rabbit.orb]
  rw [e]
  unfold Rabbit.loadKey
  simp only [List.range_eq_range', Nat.sub_zero]

theorem rf_prints (junk : Nat → Nat → U8) (keyString ivString key iv : List U8)
    (hk : denotes keyString = some key) (hku : noLower keyString) (hkl : key.length = 16)
    (hi : denotes ivString = some iv) (hiu : noLower ivString) (hil : iv.length < 2 ^ 30) :
    rabbitTestRf junk keyString ivString = .ok (codeLines key) := by
  have lk := denotes_length _ _ hk
  have li := denotes_length _ _ hi
  have ek : keyString.length / 2 = key.length := by omega
  have ei : ivString.length / 2 = iv.length := by omega
  unfold rabbitTestRf
  rw [ek, ei, decode_arr junk 0 _ keyString key hk hku rfl (by omega), Res.ok_bind, rabbit_print_key junk key hkl, Res.ok_bind,
    decode_arr junk 1 _ ivString iv hi hiu rfl hil, Res.ok_bind, load_debug junk key hkl, Res.ok_bind]
  dsimp only
  rw [Res.pure_eq, codeLines, keyLines]

theorem orb_R (n : Nat) {cs : Rabbit.State} {s : Spec.Rabbit.St} (h : Rabbit.R cs s)
    (hc : Spec.Rabbit.clean n s = true) : ∀ i ≤ n, Rabbit.R (Rabbit.orb i cs) (Spec.Rabbit.iters i s) := by
  induction n generalizing cs s with
  | zero => intro i hi; have : i = 0 := by omega
            subst this; exact h
  | succ n ih =>
    intro i hi
    obtain ⟨h1, h2⟩ := Rabbit.clean_succ hc
    cases i with
    | zero => exact h
    | succ i => exact ih (Rabbit.update_R h h1) h2 i (by omega)

theorem lines_R {cs : Rabbit.State} {s : Spec.Rabbit.St} (h : Rabbit.R cs s) :
    stateLines cs.carry.toNat cs.X cs.C = specLines s := by rw [specLines, h.X, h.C, h.b]

/-- C135, the part that holds: for every key text the program prints the key, its pieces, and the inner states of
the RFC 4503 key setup, provided that no addition of the counter system gives exactly 2^32.  Missing: keys with such
a sum, for which it is false (`rabbit_rf_refuted`). -/
theorem rabbit_rf_prints_partial (junk : Nat → Nat → U8) (keyString ivString key iv : List U8)
    (hk : denotes keyString = some key) (hku : noLower keyString) (hkl : key.length = 16)
    (hi : denotes ivString = some iv) (hiu : noLower ivString) (hil : iv.length < 2 ^ 30)
    (hc : Spec.Rabbit.clean 4 (Spec.Rabbit.keyExpand (Spec.Rabbit.leNat key)) = true) :
    rabbitTestRf junk keyString ivString = .ok (rfcLines key) := by
  rw [rf_prints junk keyString ivString key iv hk hku hkl hi hiu hil]
  have o := orb_R 4 (Rabbit.loadKeyExpand_R key) hc
  have r0 := lines_R (Rabbit.loadKeyExpand_R key)
  have r1 := lines_R (o 1 (by omega))
  have r2 := lines_R (o 2 (by omega))
  have r3 := lines_R (o 3 (by omega))
  have r4 := lines_R (o 4 (by omega))
  have rf := lines_R (Rabbit.loadKey_R hc).1
  unfold codeLines rfcLines
  dsimp only
  rw [r0, rf]
  have e : ∀ f : Nat → Printout, (List.range 4).flatMap f = f 0 ++ (f 1 ++ (f 2 ++ (f 3 ++ []))) := fun _ => rfl
  rw [e, e, r1, r2, r3, r4]

instance (cs : List U8) : Decidable (noLower cs) := by unfold noLower; infer_instance

set_option maxRecDepth 10000 in
/-- C135 with the texts of test_rf.cpp. -/
theorem rabbit_rf_shipped (junk : Nat → Nat → U8) : rabbitTestRf junk rfKey rfIv = .ok (rfcLines
    [0xAC, 0xC3, 0x51, 0xDC, 0xF1, 0x62, 0xFC, 0x3B, 0xFE, 0x36, 0x3D, 0x2E, 0x29, 0x13, 0x28, 0x91]) :=
  rabbit_rf_prints_partial junk rfKey rfIv _ (List.replicate 8 0) (by decide +kernel) (by decide +kernel) rfl (by decide +kernel) (by decide +kernel)
    (by decide +kernel) (by decide +kernel)

set_option maxRecDepth 10000 in
/-- C135 is false: with the key of `rabbit_rfc4503_refuted` the counters after the first round are not those of
RFC 4503. -/
theorem rabbit_rf_refuted : ¬ ∀ (junk : Nat → Nat → U8) (keyString ivString key iv : List U8),
    denotes keyString = some key → noLower keyString → key.length = 16 → denotes ivString = some iv →
    noLower ivString → iv.length < 2 ^ 30 → rabbitTestRf junk keyString ivString = .ok (rfcLines key) := by
  intro h
  have hk : denotes (ascii "0000000000000000CBB2B32C00000000") = some
    [0, 0, 0, 0, 0, 0, 0, 0, 0xcb, 0xb2, 0xb3, 0x2c, 0, 0, 0, 0] := by decide +kernel
  have e := h (fun _ _ => 0) (ascii "0000000000000000CBB2B32C00000000") rfIv _ (List.replicate 8 0) hk (by decide +kernel) rfl
    (by decide +kernel) (by decide +kernel) (by decide +kernel)
  rw [rf_prints _ _ _ _ (List.replicate 8 0) hk (by decide +kernel) rfl (by decide +kernel) (by decide +kernel) (by decide +kernel), Res.ok_inj] at e
  have f := congrArg (fun l : Printout => (l.map Prod.snd).getD (8 + 1 + 20 + 17 + 2 + 8 + 1) []) e
  revert f
  decide +kernel

end CT.Props.RabbitDebug
