import Verif.Model.Hex
import Verif.Spec.Hex

/-!
# Hex encoder properties (C01, C02, C83)
-/

namespace CT.Props.Hex
open CT.Hex

theorem digit_eq : ∀ n, n < 16 → sprintfDigit n = Spec.Hex.digit n := by decide

theorem sprintf_eq (b : U8) : sprintf02X b = [Spec.Hex.digit (b.toNat / 16), Spec.Hex.digit (b.toNat % 16), 0] := by
  have := b.isLt
  rw [sprintf02X, digit_eq _ (by omega), digit_eq _ (by omega)]

theorem encode_length (bs : List U8) : (Spec.Hex.encode bs).length = 2 * bs.length := by
  induction bs with
  | nil => rfl
  | cons b bs ih => simp [Spec.Hex.encode, ih]; omega

theorem encodeLoop_eq (done rest pre buf : List U8) (fuel : Nat) (hfuel : rest.length < fuel)
    (hp : pre.length = 2 * done.length) (hb : 2 * rest.length + 1 ≤ buf.length)
    (hs : done.length + rest.length < 2 ^ 30) :
    encodeLoop (done ++ rest) ((done ++ rest).length : Nat) fuel done.length (2 * done.length) (pre ++ buf) =
      .ok (pre ++ Spec.Hex.encode rest ++ 0 :: buf.drop (2 * rest.length + 1)) := by
  induction fuel generalizing done rest pre buf with
  | zero => omega
  | succ fuel ih =>
    rw [encodeLoop]
    cases rest with
    | nil =>
      match buf, hb with
      | a :: buf, _ =>
        rw [if_pos (by simp), ← hp, Mem.wr_append_cons]
        simp [Spec.Hex.encode]
    | cons b rest =>
      rw [if_neg (by simp; omega)]
      have h0 := Mem.rd_append_right done (b :: rest) 0
      rw [Nat.add_zero] at h0
      rw [h0]
      simp only [Mem.rd, List.getElem?_cons_zero, Res.ok_bind]
      rw [← hp, Mem.wrs_append _ (by simp [sprintf02X] at hb ⊢; omega)]
      simp only [Res.ok_bind]
      simp only [List.length_cons] at hs hb hfuel
      rw [if_neg (by omega)]
      rw [sprintf_eq]
      have := ih (done ++ [b]) rest (pre ++ [Spec.Hex.digit (b.toNat / 16), Spec.Hex.digit (b.toNat % 16)])
        (0 :: buf.drop 3) (by omega) (by simp; omega) (by simp; omega) (by simp; omega)
      simp only [List.append_assoc, List.cons_append, List.nil_append, List.length_append, List.length_cons,
        List.length_nil, Nat.mul_add, Nat.mul_one, Nat.zero_add, Nat.reduceAdd] at this ⊢
      rw [hp, this]
      simp [Spec.Hex.encode, List.drop_drop]
      congr 1; omega

/-- C01, encoding: exactly the upper-case text and one zero byte are written (`2n+1` bytes) and the
rest of the buffer is untouched. -/
theorem hex_encode_writes (inp out : List U8) (hs : inp.length < 2 ^ 30) (hb : 2 * inp.length + 1 ≤ out.length) :
    encode out inp inp.length = .ok (Spec.Hex.encode inp ++ 0 :: out.drop (2 * inp.length + 1)) := by
  have := encodeLoop_eq [] inp [] out (inp.length + 1) (by omega) rfl hb (by simpa using hs)
  simpa [encode] using this

example : ([0xAB, 0x01] : List U8).length < 2 ^ 30 ∧ 2 * ([0xAB, 0x01] : List U8).length + 1 ≤ (List.replicate 7 (9 : U8)).length ∧
    Spec.Hex.encode [0xAB, 0x01] = [0x41, 0x42, 0x30, 0x31] := by decide

theorem hexToInt_digit : ∀ n, n < 16 → hexToInt (Spec.Hex.digit n) = n := by decide

theorem decodeLoop_pairs (f : List U8) (dn text pre buf : List U8) (b0 : U8)
    (hd : dn.length % 2 = 0) (hp : pre.length = dn.length / 2) (hf : 2 * f.length = text.length)
    (hb : f.length ≤ buf.length)
    (hv : ∀ k (h : k < f.length), BitVec.ofInt 8 (hexToAscii (text.getD (2 * k) 0) (text.getD (2 * k + 1) 0)) = f[k]) :
    decodeLoop (dn ++ text) text.length dn.length (dn.length / 2) b0 (pre ++ buf) =
      .ok (pre ++ f ++ buf.drop f.length) := by
  induction f generalizing dn text pre buf b0 with
  | nil =>
    have : text = [] := List.length_eq_zero_iff.mp hf.symm
    subst this
    simp [decodeLoop]
  | cons x f ih =>
    match text, hf with
    | c :: d :: text, hf =>
      match buf, hb with
      | y :: buf, hb =>
        simp only [List.length_cons] at hf hb
        have h0 := Mem.rd_append_right dn (c :: d :: text) 0
        have h1 := Mem.rd_append_right dn (c :: d :: text) 1
        rw [Nat.add_zero] at h0
        simp only [List.length_cons]
        rw [decodeLoop, if_neg (by omega), h0]
        simp only [Mem.rd, List.getElem?_cons_zero, Res.ok_bind]
        rw [decodeLoop, if_pos (by omega), h1]
        simp only [Mem.rd, List.getElem?_cons_succ, List.getElem?_cons_zero, Res.ok_bind]
        rw [← hp, Mem.wr_append_cons]
        simp only [Res.ok_bind]
        have hv0 := hv 0 (by simp)
        simp only [List.getD_cons_zero, Nat.mul_zero, Nat.zero_add, List.getD_cons_succ, List.getElem_cons_zero] at hv0
        rw [hv0]
        have := ih (dn ++ [c, d]) text (pre ++ [x]) buf c (by simp; omega) (by simp; omega) (by omega) (by omega)
          (fun k hk => by
            have := hv (k + 1) (by simp; omega)
            simpa [Nat.mul_add] using this)
        simp only [List.append_assoc, List.cons_append, List.nil_append, List.length_append, List.length_cons,
          List.length_nil, Nat.zero_add, Nat.reduceAdd] at this
        have e : (dn.length + 2) / 2 = pre.length + 1 := by omega
        rw [e] at this
        simp only [Nat.add_assoc, Nat.reduceAdd, List.drop_succ_cons, List.append_assoc, List.cons_append, this]

/-- C01, round trip: decoding the text that `hex_encode` writes for a byte string gives the byte
string back, and the rest of the output buffer is untouched. -/
theorem hex_round_trip (inp out out2 : List U8) (hs : inp.length < 2 ^ 30)
    (hb : 2 * inp.length + 1 ≤ out.length) (hb2 : inp.length ≤ out2.length) :
    ∃ text, encode out inp inp.length = .ok text ∧ text.length = out.length ∧
      decode out2 text (2 * inp.length : Nat) = .ok (inp ++ out2.drop inp.length) := by
  refine ⟨_, hex_encode_writes inp out hs hb, ?_, ?_⟩
  · simp [encode_length]; omega
  · have hget : ∀ (bs : List U8) k (h : k < bs.length),
        BitVec.ofInt 8 (hexToAscii ((Spec.Hex.encode bs).getD (2 * k) 0) ((Spec.Hex.encode bs).getD (2 * k + 1) 0)) = bs[k] := by
      intro bs
      induction bs with
      | nil => intro k h; simp at h
      | cons b bs ih =>
        intro k h
        cases k with
        | zero =>
          have hb := b.isLt
          simp only [Spec.Hex.encode, Nat.mul_zero, Nat.zero_add, List.getD_cons_zero, List.getD_cons_succ, hexToAscii,
            List.getElem_cons_zero]
          rw [hexToInt_digit _ (by omega), hexToInt_digit _ (by omega)]
          apply BitVec.eq_of_toNat_eq
          rw [BitVec.toNat_ofInt]
          have : ((b.toNat / 16 : Nat) : Int) * 16 + ((b.toNat % 16 : Nat) : Int) = (b.toNat : Int) := by omega
          rw [this]; omega
        | succ k =>
          have := ih k (by simpa using h)
          simpa [Spec.Hex.encode, Nat.mul_add] using this
    have key := decodeLoop_pairs inp [] (Spec.Hex.encode inp) [] out2 0 rfl rfl (by rw [encode_length]) hb2
      (hget inp)
    have ext : ∀ (tail text : List U8) (n i o : Nat) (c : U8) (buf r : List U8),
        decodeLoop text n i o c buf = .ok r → decodeLoop (text ++ tail) n i o c buf = .ok r := by
      intro tail text n
      induction n with
      | zero => intro i o c buf r h; exact h
      | succ n ih =>
        intro i o c buf r h
        have rdx : ∀ i v, Mem.rd text i = .ok v → Mem.rd (text ++ tail) i = .ok v := by
          intro i v hv
          by_cases hi : i < text.length
          · rw [Mem.rd_eq hi] at hv
            rw [Mem.rd_eq (by simp; omega), List.getElem_append_left hi]; exact hv
          · simp [Mem.rd, List.getElem?_eq_none (Nat.le_of_not_lt hi)] at hv
        rw [decodeLoop] at h ⊢
        split
        · rename_i hi
          rw [if_pos hi] at h
          obtain ⟨v, hv, h⟩ := Res.bind_eq_ok h
          obtain ⟨w, hw, h⟩ := Res.bind_eq_ok h
          rw [rdx _ _ hv]
          simp only [Res.ok_bind, hw]
          exact ih _ _ _ _ _ h
        · rename_i hi
          rw [if_neg hi] at h
          obtain ⟨v, hv, h⟩ := Res.bind_eq_ok h
          rw [rdx _ _ hv]
          exact ih _ _ _ _ _ h
    rw [decode, Int.toNat_natCast]
    rw [encode_length] at key
    have := ext (0 :: out.drop (2 * inp.length + 1)) _ _ _ _ _ _ _ key
    simpa using this

example : ([0xAB, 0x01] : List U8).length ≤ ([0, 0, 7] : List U8).length := by decide

/-- The bytes written do not fit in a buffer of `2n` bytes: without room for the terminating zero the
call is undefined. -/
theorem hex_encode_needs_room (inp out : List U8) (hs : inp.length < 2 ^ 30) (h0 : inp ≠ [])
    (hb : out.length < 2 * inp.length + 1) : encode out inp inp.length = .ub .outOfBounds := by
  have gen : ∀ (fuel : Nat) (done rest out : List U8), rest.length < fuel → rest ≠ [] →
      done.length + rest.length < 2 ^ 30 → out.length < 2 * (done.length + rest.length) + 1 →
      encodeLoop (done ++ rest) ((done ++ rest).length : Nat) fuel done.length (2 * done.length) out = .ub .outOfBounds := by
    intro fuel
    induction fuel with
    | zero => intro done rest out h; omega
    | succ fuel ih =>
      intro done rest out hf hr hs ho
      match rest, hr with
      | b :: rest, _ =>
        simp only [List.length_cons] at hf hs ho
        rw [encodeLoop, if_neg (by simp; omega)]
        have h0 := Mem.rd_append_right done (b :: rest) 0
        rw [Nat.add_zero] at h0
        rw [h0]
        simp only [Mem.rd, List.getElem?_cons_zero, Res.ok_bind]
        by_cases hfit : 2 * done.length + (sprintf02X b).length ≤ out.length
        · rw [Mem.wrs_eq _ _ hfit]
          simp only [Res.ok_bind]
          rw [if_neg (by omega)]
          have h3 : (sprintf02X b).length = 3 := rfl
          rw [h3] at hfit
          have hne : rest ≠ [] := by rintro rfl; simp at ho; omega
          have := ih (done ++ [b]) rest (out.take (2 * done.length) ++ sprintf02X b ++ out.drop (2 * done.length + 3))
            (by omega) hne (by simp; omega) (by simp [h3]; omega)
          simpa [Nat.mul_add, h3] using this
        · rw [Mem.wrs_oob _ _ (by omega) (by simp [sprintf02X])]; rfl
  have := gen (inp.length + 1) [] inp out (by omega) h0 (by simpa using hs) (by simpa using hb)
  simpa [encode] using this

example : ([0xAB] : List U8) ≠ [] ∧ ([0, 0] : List U8).length < 2 * ([0xAB] : List U8).length + 1 := by decide

theorem hexToInt_value : ∀ c : U8, ∀ v, Spec.Hex.value c = some v → ¬ (97 ≤ c.toNat ∧ c.toNat ≤ 102) →
    hexToInt c = v := by
  have : ∀ c : Fin 256, ∀ v, Spec.Hex.value (BitVec.ofFin c) = some v →
      ¬ (97 ≤ c.val ∧ c.val ≤ 102) → hexToInt (BitVec.ofFin c) = v := by
    intro c
    have h : ∀ c : Fin 256, ¬ (97 ≤ c.val ∧ c.val ≤ 102) → (Spec.Hex.value (BitVec.ofFin c)).all
      (fun v => hexToInt (BitVec.ofFin c) == v) = true := by decide +kernel
    intro v hv hn
    have := h c hn
    rw [hv] at this
    simpa using this
  intro c v hv hn
  exact this c.toFin v hv hn

theorem value_lt (c : U8) (v : Nat) (h : Spec.Hex.value c = some v) : v < 16 := by
  simp only [Spec.Hex.value] at h
  repeat' split at h
  all_goals first | (cases h; omega) | cases h

/-- C02, the part that holds: decoding a hexadecimal text without lower-case letters writes the bytes
the text denotes.  Missing from the full statement: lower-case letters, for which it is false
(`hex_decode_text_refuted`). -/
theorem hex_decode_text_partial (text bytes out : List U8) (ht : Spec.Hex.denotes text = some bytes)
    (hl : Spec.Hex.noLower text) (hb : bytes.length ≤ out.length) :
    decode out text text.length = .ok (bytes ++ out.drop bytes.length) := by
  have main : ∀ (n : Nat) (text bytes : List U8), text.length ≤ n → Spec.Hex.denotes text = some bytes →
      Spec.Hex.noLower text → 2 * bytes.length = text.length ∧ ∀ k (h : k < bytes.length),
        BitVec.ofInt 8 (hexToAscii (text.getD (2 * k) 0) (text.getD (2 * k + 1) 0)) = bytes[k] := by
    intro n
    induction n with
    | zero =>
      intro text bytes hn h _
      have : text = [] := List.length_eq_zero_iff.mp (by omega)
      subst this
      simp only [Spec.Hex.denotes, Option.some.injEq] at h
      subst h
      exact ⟨rfl, fun k h => by simp at h⟩
    | succ n ih =>
      intro text bytes hn h hl
      match text with
      | [] =>
        simp only [Spec.Hex.denotes, Option.some.injEq] at h
        subst h
        exact ⟨rfl, fun k h => by simp at h⟩
      | [_] => simp [Spec.Hex.denotes] at h
      | c :: d :: text =>
        simp only [Spec.Hex.denotes, Option.bind_eq_bind, Option.bind_eq_some_iff, Option.pure_def, Option.some.injEq] at h
        obtain ⟨hv, h1, lv, h2, r, h3, rfl⟩ := h
        simp only [List.length_cons] at hn
        obtain ⟨g1, g2⟩ := ih text r (by omega) h3 (fun x hx => hl x (by simp [hx]))
        refine ⟨by simp; omega, fun k hk => ?_⟩
        cases k with
        | zero =>
          simp only [Nat.mul_zero, Nat.zero_add, List.getD_cons_zero, List.getD_cons_succ, hexToAscii, List.getElem_cons_zero]
          rw [hexToInt_value c hv h1 (hl c (by simp)), hexToInt_value d lv h2 (hl d (by simp))]
          have b1 := value_lt c hv h1
          have b2 := value_lt d lv h2
          apply BitVec.eq_of_toNat_eq
          rw [BitVec.toNat_ofInt, BitVec.toNat_ofNat]
          omega
        | succ k =>
          have := g2 k (by simpa using hk)
          simpa [Nat.mul_add] using this
  obtain ⟨h1, h2⟩ := main text.length text bytes (Nat.le_refl _) ht hl
  have := decodeLoop_pairs bytes [] text [] out 0 rfl rfl h1 hb h2
  simpa [decode] using this

example : Spec.Hex.denotes [0x41, 0x42, 0x30, 0x31] = some [0xAB, 0x01] ∧
    Spec.Hex.noLower [0x41, 0x42, 0x30, 0x31] := ⟨by decide, by unfold Spec.Hex.noLower; decide⟩

/-- C02 is false: the text `"aa"` denotes the byte 0xAA and is decoded to 0xFE. -/
theorem hex_decode_text_refuted :
    ¬ ∀ (text bytes out : List U8), Spec.Hex.denotes text = some bytes → bytes.length ≤ out.length →
      decode out text text.length = .ok (bytes ++ out.drop bytes.length) := by
  intro h
  have h1 := h [0x61, 0x61] [0xAA] [0] (by decide) (by decide)
  have h2 : decode [0] [0x61, 0x61] ([0x61, 0x61] : List U8).length = .ok [0xFE] := by decide
  rw [h2] at h1
  exact absurd h1 (by decide)

/-- A negative size never ends regularly: the loop runs until it leaves one of the buffers. -/
theorem hex_encode_negative (inp out : List U8) (size : Int) (h : size < 0) : (encode out inp size).isUB = true := by
  have gen : ∀ (fuel loop i : Nat) (out : List U8), (encodeLoop inp size fuel loop i out).isUB = true := by
    intro fuel
    induction fuel with
    | zero => intro loop i out; rfl
    | succ fuel ih =>
      intro loop i out
      rw [encodeLoop, if_neg (by omega)]
      cases Mem.rd inp loop with
      | ub w => rfl
      | ok b =>
        simp only [Res.ok_bind]
        cases Mem.wrs out i (sprintf02X b) with
        | ub w => rfl
        | ok o =>
          simp only [Res.ok_bind]
          split
          · rfl
          · exact ih _ _ _
  exact gen _ _ _ _

example : (encode [0, 0] [1] (-1)).isUB = true := hex_encode_negative _ _ _ (by decide)

/-- Lower-case letters are given a value that is too large by 20. -/
theorem hexToInt_exact (c : U8) (v : Nat) (h : Spec.Hex.value c = some v) :
    hexToInt c = v + if 97 ≤ c.toNat ∧ c.toNat ≤ 102 then 20 else 0 := by
  have all : ∀ c : Fin 256, (Spec.Hex.value (BitVec.ofFin c)).all
      (fun v => hexToInt (BitVec.ofFin c) == v + if 97 ≤ c.val ∧ c.val ≤ 102 then (20 : Int) else 0) = true := by
    decide +kernel
  have := all c.toFin
  have e : BitVec.ofFin c.toFin = c := rfl
  rw [e, h] at this
  simpa using this

theorem pair_iff (c d : U8) (h l : Nat) (hc : Spec.Hex.value c = some h) (hd : Spec.Hex.value d = some l) :
    BitVec.ofInt 8 (hexToAscii c d) = BitVec.ofNat 8 (16 * h + l) ↔
      ¬ (97 ≤ c.toNat ∧ c.toNat ≤ 102) ∧ ¬ (97 ≤ d.toNat ∧ d.toNat ≤ 102) := by
  have b1 := value_lt c h hc
  have b2 := value_lt d l hd
  rw [hexToAscii, hexToInt_exact c h hc, hexToInt_exact d l hd, ← BitVec.toNat_inj, BitVec.toNat_ofInt,
    BitVec.toNat_ofNat]
  split <;> split <;> omega

/-- The bytes `hex_decode` writes for a text. -/
def written : List U8 → List U8
  | c :: d :: cs => BitVec.ofInt 8 (hexToAscii c d) :: written cs
  | _ => []

theorem written_get (cs : List U8) (k : Nat) (h : k < (written cs).length) :
    BitVec.ofInt 8 (hexToAscii (cs.getD (2 * k) 0) (cs.getD (2 * k + 1) 0)) = (written cs)[k] := by
  induction cs using written.induct generalizing k with
  | case1 c d cs ih =>
    cases k with
    | zero => simp [written]
    | succ k =>
      simp only [written, List.length_cons] at h
      have := ih k (by omega)
      simpa [written, Nat.mul_add] using this
  | case2 cs h' =>
    match cs with
    | [] => simp [written] at h
    | [_] => simp [written] at h
    | a :: b :: l => exact absurd rfl (h' a b l)

theorem written_denotes (text : List U8) : ∀ bytes, Spec.Hex.denotes text = some bytes →
    2 * (written text).length = text.length ∧ (written text).length = bytes.length ∧
      (written text = bytes ↔ Spec.Hex.noLower text) := by
  induction text using written.induct with
  | case1 c d cs ih =>
    intro bytes h
    simp only [Spec.Hex.denotes, Option.bind_eq_bind, Option.bind_eq_some_iff, Option.pure_def, Option.some.injEq] at h
    obtain ⟨hv, h1, lv, h2, r, h3, rfl⟩ := h
    obtain ⟨e1, e2, e3⟩ := ih r h3
    refine ⟨by simp only [written, List.length_cons]; omega, by simp only [written, List.length_cons]; omega, ?_⟩
    rw [written, List.cons.injEq, pair_iff c d hv lv h1 h2, e3]
    simp only [Spec.Hex.noLower, List.mem_cons, forall_eq_or_imp, and_assoc]
  | case2 cs h' =>
    intro bytes h
    match cs with
    | [] =>
      simp only [Spec.Hex.denotes, Option.some.injEq] at h
      subst h
      simp [written, Spec.Hex.noLower]
    | [_] => simp [Spec.Hex.denotes] at h
    | a :: b :: l => exact absurd rfl (h' a b l)

/-- C02, exactly: a hexadecimal text is decoded to the bytes it denotes if and only if it has no
lower-case letter.  Every lower-case letter changes the byte it stands in. -/
theorem hex_decode_text_iff (text bytes out : List U8) (ht : Spec.Hex.denotes text = some bytes)
    (hb : bytes.length ≤ out.length) :
    decode out text text.length = .ok (bytes ++ out.drop bytes.length) ↔ Spec.Hex.noLower text := by
  obtain ⟨h1, h2, h3⟩ := written_denotes text bytes ht
  have := decodeLoop_pairs (written text) [] text [] out 0 rfl rfl h1 (by omega) (written_get text)
  have e : decode out text text.length = .ok (written text ++ out.drop (written text).length) := by
    simpa [decode] using this
  rw [e, ← h3, Res.ok_inj, h2]
  exact ⟨fun h => (List.append_inj h h2).1, fun h => by rw [h]⟩

/-- Instances of both sides: "aB" is not decoded, "AB" is. -/
example : Spec.Hex.denotes [0x61, 0x42] = some [0xAB] ∧ ¬ Spec.Hex.noLower [0x61, 0x42] ∧
    Spec.Hex.denotes [0x41, 0x42] = some [0xAB] ∧ Spec.Hex.noLower [0x41, 0x42] := by
  refine ⟨by decide, ?_, by decide, ?_⟩ <;> unfold Spec.Hex.noLower <;> decide

/-! ### C83: any text, hexadecimal or not -/

theorem decodeLoop_ok (inp : List U8) (n : Nat) : ∀ (i : Nat) (buf : U8) (out : List U8), i + n ≤ inp.length →
    (i + n) / 2 ≤ out.length → ∃ r, decodeLoop inp n i (i / 2) buf out = .ok r ∧ r.length = out.length ∧
      r.drop ((i + n) / 2) = out.drop ((i + n) / 2) := by
  induction n with
  | zero => intro i buf out _ _; exact ⟨out, rfl, rfl, rfl⟩
  | succ n ih =>
    intro i buf out h1 h2
    have hr : Mem.rd inp i = .ok inp[i] := Mem.rd_eq (by omega)
    by_cases hi : i % 2 ≠ 0
    · have hw : Mem.wr out (i / 2) (BitVec.ofInt 8 (hexToAscii buf inp[i])) =
          .ok (out.set (i / 2) (BitVec.ofInt 8 (hexToAscii buf inp[i]))) := by
        rw [Mem.wr, if_pos (by omega)]
      obtain ⟨r, e1, e2, e3⟩ := ih (i + 1) buf (out.set (i / 2) (BitVec.ofInt 8 (hexToAscii buf inp[i]))) (by omega)
        (by rw [List.length_set]; omega)
      refine ⟨r, ?_, by rw [e2, List.length_set], ?_⟩
      · rw [decodeLoop, if_pos hi, hr]
        simp only [Res.ok_bind, hw]
        rw [← e1, show (i + 1) / 2 = i / 2 + 1 by omega]
      · rw [show i + (n + 1) = i + 1 + n by omega, e3, List.drop_set_of_lt (by omega)]
    · obtain ⟨r, e1, e2, e3⟩ := ih (i + 1) inp[i] out (by omega) (by omega)
      refine ⟨r, ?_, e2, by rw [show i + (n + 1) = i + 1 + n by omega, e3]⟩
      rw [decodeLoop, if_neg hi, hr]
      simp only [Res.ok_bind]
      rw [← e1, show (i + 1) / 2 = i / 2 by omega]

theorem decodeLoop_ub (inp : List U8) (n : Nat) : ∀ (i : Nat) (buf : U8) (out : List U8), i / 2 ≤ out.length →
    i ≤ inp.length → (inp.length < i + n ∨ out.length < (i + n) / 2) →
    (decodeLoop inp n i (i / 2) buf out).isUB = true := by
  induction n with
  | zero => intro i buf out h1 h2 h; omega
  | succ n ih =>
    intro i buf out h1 h2 h
    by_cases hlt : i < inp.length
    · have hr : Mem.rd inp i = .ok inp[i] := Mem.rd_eq hlt
      by_cases hi : i % 2 ≠ 0
      · rw [decodeLoop, if_pos hi, hr]
        simp only [Res.ok_bind]
        by_cases ho : i / 2 < out.length
        · rw [Mem.wr, if_pos ho]
          simp only [Res.ok_bind]
          rw [show i / 2 + 1 = (i + 1) / 2 by omega]
          exact ih (i + 1) _ _ (by rw [List.length_set]; omega) (by omega) (by rw [List.length_set]; omega)
        · rw [Mem.wr, if_neg ho]; rfl
      · rw [decodeLoop, if_neg hi, hr]
        simp only [Res.ok_bind]
        rw [show i / 2 = (i + 1) / 2 by omega]
        exact ih (i + 1) _ _ (by omega) (by omega) (by omega)
    · have hr : Mem.rd inp i = .ub .outOfBounds := by
        simp [Mem.rd, List.getElem?_eq_none (Nat.le_of_not_lt hlt)]
      by_cases hi : i % 2 ≠ 0
      · rw [decodeLoop, if_pos hi, hr]; rfl
      · rw [decodeLoop, if_neg hi, hr]; rfl

/-- C83: for any characters at all, `hex_decode` is defined exactly if the text has `size` characters and
the output buffer has room for half as many bytes; then it writes nothing else. -/
theorem hex_decode_bounds_iff (text out : List U8) (size : Int) :
    (decode out text size).isUB = false ↔ size.toNat ≤ text.length ∧ size.toNat / 2 ≤ out.length := by
  constructor
  · intro h
    by_cases hc : size.toNat ≤ text.length ∧ size.toNat / 2 ≤ out.length
    · exact hc
    · have := decodeLoop_ub text size.toNat 0 0 out (Nat.zero_le _) (Nat.zero_le _) (by omega)
      rw [Nat.zero_div] at this
      rw [decode, this] at h
      cases h
  · rintro ⟨h1, h2⟩
    obtain ⟨r, e, -, -⟩ := decodeLoop_ok text size.toNat 0 0 out (by omega) (by omega)
    rw [Nat.zero_div] at e
    rw [decode, e]; rfl

/-- C83: the bytes after the first `size / 2` are untouched, and the buffer keeps its size. -/
theorem hex_decode_frame (text out r : List U8) (size : Int) (h : decode out text size = .ok r) :
    r.length = out.length ∧ r.drop (size.toNat / 2) = out.drop (size.toNat / 2) := by
  have hb := (hex_decode_bounds_iff text out size).mp (by rw [h]; rfl)
  obtain ⟨r', e, e2, e3⟩ := decodeLoop_ok text size.toNat 0 0 out (by omega) (by omega)
  rw [Nat.zero_div] at e
  rw [decode, e, Res.ok_inj] at h
  subst h
  rw [Nat.zero_add] at e3
  exact ⟨e2, e3⟩

/-- Instance: the text "x?!" with a size of 3 and a buffer of two bytes. -/
example : (3 : Int).toNat ≤ ([0x78, 0x3f, 0x21] : List U8).length ∧ (3 : Int).toNat / 2 ≤ ([1, 2] : List U8).length ∧
    ∃ b, decode [1, 2] [0x78, 0x3f, 0x21] 3 = .ok [b, 2] := ⟨by decide, by decide, _, rfl⟩

end CT.Props.Hex
