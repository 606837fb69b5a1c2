import Verif.Proof.AESCtr

/-!
# AES cipher feedback packets
-/

namespace CT.AES

/-! ### Reading back -/

theorem xored_out_get {io : Io} {ks : List U8} (h : io.Fits ks.length) {i : Nat} (hi : i < ks.length) :
    (io.xored ks).out[i]? = (xorBytes (io.src.take ks.length) ks)[i]? := by
  have h1 := h.1
  rw [Io.xored]
  exact List.getElem?_append_left (by simp; omega)

/-- What enters the shift register: the output bytes, or the input bytes. -/
def fed (fb : Bool) (msg ks : List U8) : List U8 := if fb then xorBytes msg ks else msg

theorem fed_length {fb : Bool} {msg ks : List U8} (h : ks.length = msg.length) : (fed fb msg ks).length = msg.length := by
  cases fb <;> simp [fed, h]

/-- Read a list, undefined outside. -/
def listRd8 (l : List U8) (i : Nat) : Res U8 :=
  match l[i]? with
  | some b => .ok b
  | none => .ub .outOfBounds

def listRd32 (l : List U8) (i : Nat) : Res U32 := do
  let b0 ← listRd8 l i
  let b1 ← listRd8 l (i + 1)
  let b2 ← listRd8 l (i + 2)
  let b3 ← listRd8 l (i + 3)
  return le32 b0 b1 b2 b3

theorem xorBytes_drop (a b : List U8) (n : Nat) : (xorBytes a b).drop n = xorBytes (a.drop n) (b.drop n) := by
  simp [xorBytes, List.drop_zipWith]

/-- The bytes of the current block as seen through `w_state_ptr` after the block was written. -/
theorem ctRd8_xored {io : Io} (mode : Bool) (pre ks : List U8) (n i : Nat) (hk : ks.length = n) (hi : i < n)
    (hf : io.Fits (pre.length + n)) :
    ctRd8 mode (io.xored (pre ++ ks)) (pre.length + i) =
      listRd8 (fed (!mode || io.alias) ((io.src.drop pre.length).take n) ks) i := by
  have h1 := hf.1
  have hl : (pre ++ ks).length = pre.length + n := by simp [hk]
  have hout : (io.xored (pre ++ ks)).out[pre.length + i]? =
      (xorBytes ((io.src.drop pre.length).take n) ks)[i]? := by
    rw [xored_out_get (by rw [hl]; exact hf) (by omega), hl, List.take_add, xorBytes_append (by simp; omega),
      List.getElem?_append_right (by simp; omega), xorBytes_length, List.length_take]
    congr 1; omega
  cases mode with
  | false =>
    simp only [ctRd8, Bool.false_eq_true, if_false, Io.rdOut8, hout, fed, Bool.not_false, Bool.true_or, if_true, listRd8]
    rfl
  | true =>
    simp only [ctRd8, if_true, Io.rd8, Bool.not_true, Bool.false_or]
    cases ha : io.alias with
    | true =>
      have : (io.xored (pre ++ ks)).src = (io.xored (pre ++ ks)).out := by simp [Io.src, ha]
      rw [this, hout]; rfl
    | false =>
      have : (io.xored (pre ++ ks)).src = io.src := by simp [Io.src, ha]
      rw [this]
      simp only [fed, Bool.false_eq_true, if_false, listRd8]
      rw [List.getElem?_take_of_lt hi, List.getElem?_drop]
      rfl

theorem ctRd32_xored {io : Io} (mode : Bool) (pre ks : List U8) (n i : Nat) (hk : ks.length = n) (hi : i + 4 ≤ n)
    (hf : io.Fits (pre.length + n)) :
    ctRd32 mode (io.xored (pre ++ ks)) (pre.length + i) =
      listRd32 (fed (!mode || io.alias) ((io.src.drop pre.length).take n) ks) i := by
  have h := fun j (hj : j < n) => ctRd8_xored mode pre ks n j hk hj hf
  have e : ctRd32 mode (io.xored (pre ++ ks)) (pre.length + i) = (do
      let b0 ← ctRd8 mode (io.xored (pre ++ ks)) (pre.length + i)
      let b1 ← ctRd8 mode (io.xored (pre ++ ks)) (pre.length + i + 1)
      let b2 ← ctRd8 mode (io.xored (pre ++ ks)) (pre.length + i + 2)
      let b3 ← ctRd8 mode (io.xored (pre ++ ks)) (pre.length + i + 3)
      return le32 b0 b1 b2 b3) := by cases mode <;> rfl
  rw [e, h i (by omega), Nat.add_assoc, h (i + 1) (by omega), Nat.add_assoc, h (i + 2) (by omega), Nat.add_assoc,
    h (i + 3) (by omega)]
  rfl

theorem listRd8_lt {l : List U8} {i : Nat} (h : i < l.length) : listRd8 l i = .ok (l.getD i 0) := by
  rw [listRd8, List.getElem?_eq_getElem h, List.getD_eq_getElem?_getD, List.getElem?_eq_getElem h]; rfl

theorem listRd32_lt {l : List U8} {i : Nat} (h : i + 4 ≤ l.length) : listRd32 l i =
    .ok (le32 (l.getD i 0) (l.getD (i + 1) 0) (l.getD (i + 2) 0) (l.getD (i + 3) 0)) := by
  rw [listRd32, listRd8_lt (by omega), listRd8_lt (by omega), listRd8_lt (by omega), listRd8_lt (by omega)]; rfl

theorem fullStateUpdate_list {rd : Nat → Res U32} {c : List U8} (hc : c.length = 16)
    (h : ∀ i, i + 4 ≤ 16 → rd i = listRd32 c i) : fullStateUpdate rd = .ok (quadOf c) := by
  rw [fullStateUpdate, h 0 (by omega), h 4 (by omega), h 8 (by omega), h 12 (by omega), listRd32_lt (by omega),
    listRd32_lt (by omega), listRd32_lt (by omega), listRd32_lt (by omega)]
  rfl

/-- `partial_state_update` reads only the bytes of the partial block. -/
theorem partial_congr {rd8 rd8' : Nat → Res U8} {rd32 rd32' : Nat → Res U32} (q : Quad) (n : Nat) (h0 : 0 < n) (hn : n < 16)
    (h8 : ∀ i, i < n → rd8 i = rd8' i) (h32 : ∀ i, i + 4 ≤ n → rd32 i = rd32' i) :
    partialStateUpdate rd8 rd32 q n = partialStateUpdate rd8' rd32' q n := by
  match n, h0, hn with
  | k + 16, _, h => omega
  | 1, _, _ => simp [partialStateUpdate, h8 0]
  | 2, _, _ => simp [partialStateUpdate, h8 0, h8 1]
  | 3, _, _ => simp [partialStateUpdate, h8 0, h8 1, h8 2]
  | 4, _, _ => simp [partialStateUpdate, h32 0]
  | 5, _, _ => simp [partialStateUpdate, h8 0, h32 1]
  | 6, _, _ => simp [partialStateUpdate, h8 0, h8 1, h32 2]
  | 7, _, _ => simp [partialStateUpdate, h8 0, h8 1, h8 2, h32 3]
  | 8, _, _ => simp [partialStateUpdate, h32 0, h32 1]
  | 9, _, _ => simp [partialStateUpdate, h8 0, h32 1, h32 5]
  | 10, _, _ => simp [partialStateUpdate, h8 0, h8 1, h32 2, h32 6]
  | 11, _, _ => simp [partialStateUpdate, h8 0, h8 1, h8 2, h32 3, h32 7]
  | 12, _, _ => simp [partialStateUpdate, h32 0, h32 1, h32 2]
  | 13, _, _ => simp [partialStateUpdate, h8 0, h32 1, h32 5, h32 9]
  | 14, _, _ => simp [partialStateUpdate, h8 0, h8 1, h32 2, h32 6, h32 10]
  | 15, _, _ => simp [partialStateUpdate, h8 0, h8 1, h8 2, h32 3, h32 7, h32 11]

/-- The register after a partial block whose fed-back bytes are `c`. -/
def partUpd (q : Quad) (c : List U8) : Quad :=
  match partialStateUpdate (fun i => .ok (c.getD i 0))
    (fun i => .ok (le32 (c.getD i 0) (c.getD (i + 1) 0) (c.getD (i + 2) 0) (c.getD (i + 3) 0))) q c.length with
  | .ok q => q
  | .ub _ => q

theorem partial_list (q : Quad) (c : List U8) (h0 : 0 < c.length) (hn : c.length < 16) :
    partialStateUpdate (listRd8 c) (listRd32 c) q c.length = .ok (partUpd q c) := by
  rw [partial_congr q c.length h0 hn (fun i hi => listRd8_lt hi) (fun i hi => listRd32_lt hi)]
  have : ∃ q', partialStateUpdate (fun i => .ok (c.getD i 0))
      (fun i => .ok (le32 (c.getD i 0) (c.getD (i + 1) 0) (c.getD (i + 2) 0) (c.getD (i + 3) 0))) q c.length = .ok q' := by
    simp only [partialStateUpdate, Res.ok_bind, Res.pure_eq]
    repeat' split
    all_goals exact ⟨_, rfl⟩
  obtain ⟨q', h⟩ := this
  rw [partUpd, h]

/-! ### Packets -/

/-- Keystream and final state of `m` whole blocks of `msg`. -/
def cfbBlocks (v : CfbVariant) (fb : Bool) : Nat → State → List U8 → List U8 × State
  | 0, cs, _ => ([], cs)
  | m + 1, cs, msg =>
    let q := v.enc cs.rk cs.reg
    let r := cfbBlocks v fb m { cs with reg := quadOf (fed fb (msg.take 16) q.bytes) } (msg.drop 16)
    (q.bytes ++ r.1, r.2)

/-- The words of a block in the order in which the tail uses them. -/
def down (q : Quad) : List U32 := [q.w3, q.w2, q.w1, q.w0]

/-- Keystream and final state of a partial block. -/
def cfbTail (v : CfbVariant) (fb : Bool) (cs : State) (msg : List U8) : List U8 × State :=
  if msg.length = 0 then ([], cs)
  else
    let r := cfbEncrypt v cs
    let ks := tailKs (down r.2) msg.length
    (ks, { r.1 with reg := partUpd r.1.reg (fed fb msg ks) })

/-- Keystream and final state of a packet. -/
def cfbRun (v : CfbVariant) (fb : Bool) (cs : State) (msg : List U8) : List U8 × State :=
  let r := cfbBlocks v fb (msg.length / 16) cs msg
  let t := cfbTail v fb r.2 (msg.drop (16 * (msg.length / 16)))
  (r.1 ++ t.1, t.2)

theorem cfbBlocks_length (v : CfbVariant) (fb : Bool) (m : Nat) (cs : State) (msg : List U8) :
    (cfbBlocks v fb m cs msg).1.length = 16 * m := by
  induction m generalizing cs msg with
  | zero => rfl
  | succ m ih => simp [cfbBlocks, ih]; omega

theorem cfbTail_length (v : CfbVariant) (fb : Bool) (cs : State) (msg : List U8) (h : msg.length < 16) (h4 : msg.length % 4 ≤ 1) :
    (cfbTail v fb cs msg).1.length = msg.length := by
  rw [cfbTail]
  split
  · simp [*]
  · exact tailKs_length _ _ h h4 rfl

theorem cfbRun_length (v : CfbVariant) (fb : Bool) (cs : State) (msg : List U8) (h4 : msg.length % 4 ≤ 1) :
    (cfbRun v fb cs msg).1.length = msg.length := by
  rw [cfbRun, List.length_append, cfbBlocks_length, cfbTail_length _ _ _ _ (by simp; omega) (by simp; omega)]
  simp; omega

theorem cfbEncrypt_reg (v : CfbVariant) (cs : State) (q : Quad) :
    ({ (cfbEncrypt v cs).1 with reg := q } : State) = { cs with reg := q } := by
  simp only [cfbEncrypt]; split <;> rfl

/-- One whole block. -/
theorem cfbLoop_block (v : CfbVariant) (mode : Bool) {io : Io} (fuel n : Nat) (cs : State) (pre : List U8)
    (hn : 16 ≤ n) (hf : io.Fits (pre.length + n)) :
    cfbLoop v mode (fuel + 1) n pre.length cs (io.xored pre) =
      (let q := v.enc cs.rk cs.reg
       cfbLoop v mode fuel (n - 16) (pre.length + 16)
        { cs with reg := quadOf (fed (!mode || io.alias) ((io.src.drop pre.length).take 16) q.bytes) }
        (io.xored (pre ++ q.bytes))) := by
  have hq : (cfbEncrypt v cs).2 = v.enc cs.rk cs.reg := rfl
  rw [cfbLoop, if_pos (by omega)]
  simp only []
  rw [if_pos hn, hq]
  generalize v.enc cs.rk cs.reg = q
  rw [Io.xor32_xored rfl (hf.mono (by omega)), Res.ok_bind,
    Io.xor32_xored (by simp [bytesLE32_length]) (hf.mono (by omega)), Res.ok_bind,
    Io.xor32_xored (by simp [bytesLE32_length]) (hf.mono (by omega)), Res.ok_bind,
    Io.xor32_xored (by simp [bytesLE32_length]) (hf.mono (by omega)), Res.ok_bind]
  have e : pre ++ bytesLE32 q.w0 ++ bytesLE32 q.w1 ++ bytesLE32 q.w2 ++ bytesLE32 q.w3 = pre ++ q.bytes := by
    simp [Quad.bytes, Quad.toList]
  have h1 := hf.1
  rw [e, fullStateUpdate_list (c := fed (!mode || io.alias) ((io.src.drop pre.length).take 16) q.bytes)
    (by rw [fed_length (by simp; omega)]; simp; omega)
    (fun i hi => ctRd32_xored mode pre q.bytes 16 i rfl hi (hf.mono (by omega))), Res.ok_bind, cfbEncrypt_reg]

/-- The incomplete last block. -/
theorem cfbLoop_tail (v : CfbVariant) (mode : Bool) {io : Io} (fuel n : Nat) (cs : State) (pre : List U8)
    (hn : n < 16) (h4 : n % 4 ≤ 1) (hf : io.Fits (pre.length + n)) :
    cfbLoop v mode (fuel + 1) n pre.length cs (io.xored pre) =
      .ok ((cfbTail v (!mode || io.alias) cs ((io.src.drop pre.length).take n)).2,
        io.xored (pre ++ (cfbTail v (!mode || io.alias) cs ((io.src.drop pre.length).take n)).1)) := by
  have h1 := hf.1
  have hl : ((io.src.drop pre.length).take n).length = n := by simp; omega
  rw [cfbLoop, cfbTail]
  simp only [hl]
  by_cases h0 : n = 0
  · rw [if_neg (by omega), if_pos h0]; simp
  · rw [if_pos (by omega), if_neg h0, if_neg (by omega)]
    have ht := tail_ok (down (cfbEncrypt v cs).2) (io := io) n pre.length pre rfl hn h4 rfl hf
    have hk := tailKs_length (down (cfbEncrypt v cs).2) n hn h4 rfl
    rw [down] at ht
    rw [ht]
    rw [down] at hk
    simp only [Res.ok_bind, down]
    have hfl : (fed (!mode || io.alias) ((io.src.drop pre.length).take n)
        (tailKs [(cfbEncrypt v cs).2.w3, (cfbEncrypt v cs).2.w2, (cfbEncrypt v cs).2.w1, (cfbEncrypt v cs).2.w0] n)).length = n := by
      rw [fed_length (by rw [hk, hl]), hl]
    rw [partial_congr _ n (by omega) hn (fun i hi => ctRd8_xored mode pre _ n i hk hi hf)
      (fun i hi => ctRd32_xored mode pre _ n i hk hi hf)]
    have hp := partial_list (cfbEncrypt v cs).1.reg (fed (!mode || io.alias) ((io.src.drop pre.length).take n)
        (tailKs [(cfbEncrypt v cs).2.w3, (cfbEncrypt v cs).2.w2, (cfbEncrypt v cs).2.w1, (cfbEncrypt v cs).2.w0] n))
        (by omega) (by omega)
    rw [hfl] at hp
    rw [hp]
    rfl

theorem cfbLoop_tail_ub (v : CfbVariant) (mode : Bool) {io : Io} (fuel n : Nat) (cs : State) (pre : List U8)
    (hn : n < 16) (h4 : 2 ≤ n % 4) (hf : io.Fits (pre.length + n)) :
    cfbLoop v mode (fuel + 1) n pre.length cs (io.xored pre) = .ub .badShift := by
  rw [cfbLoop, if_pos (by omega)]
  simp only []
  rw [if_neg (by omega)]
  have ht := tail_ub (down (cfbEncrypt v cs).2) (io := io) n pre.length pre rfl hn h4 rfl hf
  rw [down] at ht
  rw [ht]
  rfl

theorem cfbLoop_eq (v : CfbVariant) (mode : Bool) {io : Io} (t : Nat) (ht : t < 16) (h4 : t % 4 ≤ 1) (m : Nat) :
    ∀ (fuel : Nat) (cs : State) (pre : List U8), 16 * m + t < fuel → io.Fits (pre.length + (16 * m + t)) →
    cfbLoop v mode fuel (16 * m + t) pre.length cs (io.xored pre) =
      (let r := cfbBlocks v (!mode || io.alias) m cs (io.src.drop pre.length)
       let u := cfbTail v (!mode || io.alias) r.2 ((io.src.drop (pre.length + 16 * m)).take t)
       .ok (u.2, io.xored (pre ++ (r.1 ++ u.1)))) := by
  induction m with
  | zero =>
    intro fuel cs pre hfuel hf
    obtain ⟨fuel, rfl⟩ : ∃ k, fuel = k + 1 := ⟨fuel - 1, by omega⟩
    simp only [Nat.mul_zero, Nat.zero_add, Nat.add_zero] at hf ⊢
    rw [cfbLoop_tail v mode fuel t cs pre ht h4 hf]
    rfl
  | succ m ih =>
    intro fuel cs pre hfuel hf
    obtain ⟨fuel, rfl⟩ : ∃ k, fuel = k + 1 := ⟨fuel - 1, by omega⟩
    rw [cfbLoop_block v mode fuel _ cs pre (by omega) hf]
    simp only [cfbBlocks]
    generalize hq : v.enc cs.rk cs.reg = q
    have hl : (pre ++ q.bytes).length = pre.length + 16 := by simp
    rw [show 16 * (m + 1) + t - 16 = 16 * m + t by omega, ← hl,
      ih fuel _ (pre ++ q.bytes) (by omega) (by rw [hl]; exact hf.mono (by omega)), hl]
    simp only [List.append_assoc, List.drop_drop]
    rw [show pre.length + 16 + 16 * m = pre.length + 16 * (m + 1) by omega]

theorem cfbLoop_ub (v : CfbVariant) (mode : Bool) {io : Io} (t : Nat) (ht : t < 16) (h4 : 2 ≤ t % 4) (m : Nat) :
    ∀ (fuel : Nat) (cs : State) (pre : List U8), 16 * m + t < fuel → io.Fits (pre.length + (16 * m + t)) →
    cfbLoop v mode fuel (16 * m + t) pre.length cs (io.xored pre) = .ub .badShift := by
  induction m with
  | zero =>
    intro fuel cs pre hfuel hf
    obtain ⟨fuel, rfl⟩ : ∃ k, fuel = k + 1 := ⟨fuel - 1, by omega⟩
    simp only [Nat.mul_zero, Nat.zero_add] at hf ⊢
    exact cfbLoop_tail_ub v mode fuel t cs pre ht h4 hf
  | succ m ih =>
    intro fuel cs pre hfuel hf
    obtain ⟨fuel, rfl⟩ : ∃ k, fuel = k + 1 := ⟨fuel - 1, by omega⟩
    rw [cfbLoop_block v mode fuel _ cs pre (by omega) hf]
    simp only []
    generalize hq : v.enc cs.rk cs.reg = q
    have hl : (pre ++ q.bytes).length = pre.length + 16 := by simp
    rw [show 16 * (m + 1) + t - 16 = 16 * m + t by omega, ← hl,
      ih fuel _ (pre ++ q.bytes) (by omega) (by rw [hl]; exact hf.mono (by omega))]

theorem cfbBlocks_congr (v : CfbVariant) (fb : Bool) (m : Nat) : ∀ (cs : State) (a b : List U8),
    a.take (16 * m) = b.take (16 * m) → cfbBlocks v fb m cs a = cfbBlocks v fb m cs b := by
  induction m with
  | zero => intro cs a b _; rfl
  | succ m ih =>
    intro cs a b h
    have h1 : a.take 16 = b.take 16 := by
      have := congrArg (List.take 16) h
      simpa [List.take_take, show min 16 (16 * (m + 1)) = 16 by omega] using this
    have h2 : (a.drop 16).take (16 * m) = (b.drop 16).take (16 * m) := by
      have := congrArg (List.drop 16) h
      rw [List.drop_take, List.drop_take] at this
      rw [show 16 * (m + 1) - 16 = 16 * m by omega] at this
      exact this
    simp only [cfbBlocks, h1]
    rw [ih _ _ _ h2]

/-- The packet function in closed form. -/
theorem cfbPacket_eq (v : CfbVariant) (mode : Bool) (cs : State) {io : Io} {n : Nat} (h4 : n % 4 ≤ 1) (hf : io.Fits n) :
    cfbPacket v mode cs io n =
      .ok ((cfbRun v (!mode || io.alias) cs (io.src.take n)).2,
        io.xored (cfbRun v (!mode || io.alias) cs (io.src.take n)).1) := by
  have h1 := hf.1
  have hl : (io.src.take n).length = n := by simp; omega
  have h := cfbLoop_eq v mode (io := io) (n % 16) (by omega) (by omega) (n / 16) (n + 1) cs [] (by omega)
    (by simp only [List.length_nil]; exact hf.mono (by omega))
  rw [Io.xored_nil, show 16 * (n / 16) + n % 16 = n by omega] at h
  rw [cfbPacket, Int.toNat_natCast]
  simp only [List.length_nil] at h
  rw [h]
  have e : (io.src.take n).drop (16 * (n / 16)) = (io.src.drop (0 + 16 * (n / 16))).take (n % 16) := by
    rw [List.drop_take]
    congr 1
    · omega
    · rw [Nat.zero_add]
  simp only [cfbRun, hl, e, List.nil_append, List.drop_zero]
  rw [cfbBlocks_congr v (!mode || io.alias) (n / 16) cs io.src (io.src.take n)
    (by rw [List.take_take]; congr 1; omega)]

theorem cfbPacket_ub (v : CfbVariant) (mode : Bool) (cs : State) {io : Io} {n : Nat} (h4 : 2 ≤ n % 4) (hf : io.Fits n) :
    cfbPacket v mode cs io n = .ub .badShift := by
  have h := cfbLoop_ub v mode (io := io) (n % 16) (by omega) (by omega) (n / 16) (n + 1) cs [] (by omega)
    (by simp only [List.length_nil]; exact hf.mono (by omega))
  rw [Io.xored_nil, show 16 * (n / 16) + n % 16 = n by omega] at h
  rw [cfbPacket, Int.toNat_natCast]
  exact h

/-! ### Decryption inverts encryption -/

theorem cfbBlocks_dec (v : CfbVariant) (m : Nat) : ∀ (cs : State) (msg ct : List U8),
    16 * m ≤ msg.length → ct.take (16 * m) = xorBytes (msg.take (16 * m)) (cfbBlocks v true m cs msg).1 →
    cfbBlocks v false m cs ct = cfbBlocks v true m cs msg := by
  induction m with
  | zero => intro cs msg ct _ _; rfl
  | succ m ih =>
    intro cs msg ct hl h
    simp only [cfbBlocks] at h ⊢
    generalize v.enc cs.rk cs.reg = q at h ⊢
    have e0 : 16 * (m + 1) = 16 + 16 * m := by omega
    have hsplit : xorBytes (msg.take (16 * (m + 1)))
        (q.bytes ++ (cfbBlocks v true m { cs with reg := quadOf (fed true (msg.take 16) q.bytes) } (msg.drop 16)).1) =
        xorBytes (msg.take 16) q.bytes ++ xorBytes ((msg.drop 16).take (16 * m))
          (cfbBlocks v true m { cs with reg := quadOf (fed true (msg.take 16) q.bytes) } (msg.drop 16)).1 := by
      rw [e0, List.take_add, xorBytes_append (by simp; omega)]
    rw [hsplit, e0, List.take_add] at h
    have hx : (xorBytes (msg.take 16) q.bytes).length = 16 := by simp; omega
    have hct : 16 + 16 * m ≤ ct.length := by
      have := congrArg List.length h
      simp only [List.length_append, List.length_take, hx, xorBytes_length, List.length_drop, cfbBlocks_length] at this
      omega
    have h12 := List.append_inj h (by rw [hx, List.length_take]; omega)
    have e1 : fed false (ct.take 16) q.bytes = fed true (msg.take 16) q.bytes := by
      simp only [fed, Bool.false_eq_true, if_false, if_true, h12.1]
    rw [e1, ih _ (msg.drop 16) (ct.drop 16) (by simp; omega) h12.2]

theorem cfbTail_dec (v : CfbVariant) (cs : State) (msg : List U8) (h : msg.length < 16) (h4 : msg.length % 4 ≤ 1) :
    cfbTail v false cs (xorBytes msg (cfbTail v true cs msg).1) = cfbTail v true cs msg := by
  have hl := cfbTail_length v true cs msg h h4
  have hx : (xorBytes msg (cfbTail v true cs msg).1).length = msg.length := by simp [hl]
  by_cases h0 : msg.length = 0
  · have : msg = [] := List.length_eq_zero_iff.mp h0
    subst this; rfl
  · have e : cfbTail v true cs msg = (tailKs (down (cfbEncrypt v cs).2) msg.length,
        { (cfbEncrypt v cs).1 with reg := partUpd (cfbEncrypt v cs).1.reg (fed true msg (tailKs (down (cfbEncrypt v cs).2) msg.length)) }) := by
      rw [cfbTail, if_neg h0]
    rw [cfbTail, hx, if_neg h0]
    rw [e]
    simp only [fed, Bool.false_eq_true, if_false, if_true]

/-- Decrypting what was encrypted from the same state uses the same keystream and ends in the same
state. -/
theorem cfbRun_dec (v : CfbVariant) (cs : State) (msg : List U8) (h4 : msg.length % 4 ≤ 1) :
    cfbRun v false cs (xorBytes msg (cfbRun v true cs msg).1) = cfbRun v true cs msg := by
  have hl := cfbRun_length v true cs msg h4
  have hx : (xorBytes msg (cfbRun v true cs msg).1).length = msg.length := by simp [hl]
  have hm : 16 * (msg.length / 16) ≤ msg.length := by omega
  have hsplit : xorBytes msg (cfbRun v true cs msg).1 =
      xorBytes (msg.take (16 * (msg.length / 16))) (cfbBlocks v true (msg.length / 16) cs msg).1 ++
      xorBytes (msg.drop (16 * (msg.length / 16)))
        (cfbTail v true (cfbBlocks v true (msg.length / 16) cs msg).2 (msg.drop (16 * (msg.length / 16)))).1 := by
    rw [cfbRun]
    simp only []
    rw [← xorBytes_append (by rw [List.length_take, cfbBlocks_length]; omega), List.take_append_drop]
  have hfirst : (xorBytes (msg.take (16 * (msg.length / 16))) (cfbBlocks v true (msg.length / 16) cs msg).1).length =
      16 * (msg.length / 16) := by
    rw [xorBytes_length, List.length_take, cfbBlocks_length]; omega
  have hb : cfbBlocks v false (msg.length / 16) cs (xorBytes msg (cfbRun v true cs msg).1) =
      cfbBlocks v true (msg.length / 16) cs msg := by
    apply cfbBlocks_dec v _ cs msg _ hm
    rw [hsplit, List.take_append_of_le_length (by rw [hfirst]; omega), List.take_of_length_le (by rw [hfirst]; omega)]
  have hd : (xorBytes msg (cfbRun v true cs msg).1).drop (16 * (msg.length / 16)) =
      xorBytes (msg.drop (16 * (msg.length / 16)))
        (cfbTail v true (cfbBlocks v true (msg.length / 16) cs msg).2 (msg.drop (16 * (msg.length / 16)))).1 := by
    rw [hsplit, List.drop_append_of_le_length (by rw [hfirst]; omega), List.drop_of_length_le (by rw [hfirst]; omega),
      List.nil_append]
  rw [cfbRun, hx]
  rw [hb, hd, cfbTail_dec v _ _ (by simp; omega) (by simp; omega)]
  rfl

/-! ### Independence of the variant and of the register -/

theorem cfbBlocks_variant {v w : CfbVariant} (h : v.enc = w.enc) (fb : Bool) (m : Nat) (cs : State) (msg : List U8) :
    cfbBlocks v fb m cs msg = cfbBlocks w fb m cs msg := by
  induction m generalizing cs msg with
  | zero => rfl
  | succ m ih => simp only [cfbBlocks, h, ih]

theorem cfbTail_variant {v w : CfbVariant} (h : v.enc = w.enc) (fb : Bool) (cs : State) (msg : List U8) :
    (cfbTail v fb cs msg).1 = (cfbTail w fb cs msg).1 := by
  simp only [cfbTail, cfbEncrypt, h]
  split <;> rfl

/-- The output of a packet does not depend on whether the registers are written back. -/
theorem cfbRun_variant {v w : CfbVariant} (h : v.enc = w.enc) (fb : Bool) (cs : State) (msg : List U8) :
    (cfbRun v fb cs msg).1 = (cfbRun w fb cs msg).1 := by
  simp only [cfbRun, cfbBlocks_variant h, cfbTail_variant h]

theorem cfbRun_variant_state {v w : CfbVariant} (h : v.enc = w.enc) (fb : Bool) (cs : State) (msg : List U8)
    (h16 : msg.length % 16 = 0) : cfbRun v fb cs msg = cfbRun w fb cs msg := by
  have hl : (msg.drop (16 * (msg.length / 16))).length = 0 := by simp; omega
  simp only [cfbRun, cfbBlocks_variant h, cfbTail, hl, if_true]

theorem x86_enc : x86.enc = portable.enc := by funext rk s; exact encryptX86_eq rk s
theorem arm_eq : arm = portable := by
  have : encryptArm = encrypt false := by funext rk s; exact encryptArm_eq rk s
  simp only [arm, portable, this]

/-- The register before a whole block only matters for that block. -/
theorem cfbRun_sync (v : CfbVariant) (c1 c2 : State) (hrk : c1.rk = c2.rk) (ct : List U8) (hl : 16 ≤ ct.length) :
    (cfbRun v false c1 ct).1.drop 16 = (cfbRun v false c2 ct).1.drop 16 ∧
      (cfbRun v false c1 ct).2 = (cfbRun v false c2 ct).2 := by
  obtain ⟨m, hm⟩ : ∃ m, ct.length / 16 = m + 1 := ⟨ct.length / 16 - 1, by omega⟩
  have e : ∀ cs : State, (cfbBlocks v false (m + 1) cs ct).1.drop 16 =
      (cfbBlocks v false m { cs with reg := quadOf (ct.take 16) } (ct.drop 16)).1 ∧
      (cfbBlocks v false (m + 1) cs ct).2 = (cfbBlocks v false m { cs with reg := quadOf (ct.take 16) } (ct.drop 16)).2 := by
    intro cs
    simp only [cfbBlocks, fed, Bool.false_eq_true, if_false, and_true]
    rw [List.drop_append_of_le_length (by simp), List.drop_of_length_le (by simp), List.nil_append]
  have hs : ({ c1 with reg := quadOf (ct.take 16) } : State) = { c2 with reg := quadOf (ct.take 16) } := by rw [hrk]
  obtain ⟨a1, a2⟩ := e c1
  obtain ⟨b1, b2⟩ := e c2
  have h2 : (cfbBlocks v false (m + 1) c1 ct).2 = (cfbBlocks v false (m + 1) c2 ct).2 := by rw [a2, b2, hs]
  simp only [cfbRun, hm]
  refine ⟨?_, by rw [h2]⟩
  rw [List.drop_append_of_le_length (by rw [cfbBlocks_length]; omega),
    List.drop_append_of_le_length (by rw [cfbBlocks_length]; omega), a1, b1, hs, h2]

/-! ### SP 800-38A -/

theorem cfbBlocks_enc_spec (key : List U8) (m : Nat) : ∀ (prev msg : List U8), prev.length = 16 → 16 * m ≤ msg.length →
    xorBytes (msg.take (16 * m)) (cfbBlocks portable true m ⟨quadOf prev, keyExpansion key⟩ msg).1 =
      Spec.AES.cfbEnc key m prev msg := by
  induction m with
  | zero => intro prev msg _ _; rfl
  | succ m ih =>
    intro prev msg hp hl
    have hq : (portable.enc (keyExpansion key) (quadOf prev)).bytes = Spec.AES.cipher key prev := by
      have := encrypt_eq key (quadOf prev)
      rw [quadOf_bytes hp] at this
      exact this
    simp only [cfbBlocks, hq, Spec.AES.cfbEnc, fed, if_true]
    have hc : (Spec.AES.cipher key prev).length = 16 := rfl
    rw [show 16 * (m + 1) = 16 + 16 * m by omega, List.take_add, xorBytes_append (by simp [hc]; omega),
      ih _ (msg.drop 16) (by simp [hc]; omega) (by simp; omega)]

theorem cfbBlocks_dec_spec (key : List U8) (m : Nat) : ∀ (prev ct : List U8), prev.length = 16 → 16 * m ≤ ct.length →
    xorBytes (ct.take (16 * m)) (cfbBlocks portable false m ⟨quadOf prev, keyExpansion key⟩ ct).1 =
      Spec.AES.cfbDec key m prev ct := by
  induction m with
  | zero => intro prev ct _ _; rfl
  | succ m ih =>
    intro prev ct hp hl
    have hq : (portable.enc (keyExpansion key) (quadOf prev)).bytes = Spec.AES.cipher key prev := by
      have := encrypt_eq key (quadOf prev)
      rw [quadOf_bytes hp] at this
      exact this
    simp only [cfbBlocks, hq, Spec.AES.cfbDec, fed, Bool.false_eq_true, if_false]
    have hc : (Spec.AES.cipher key prev).length = 16 := rfl
    rw [show 16 * (m + 1) = 16 + 16 * m by omega, List.take_add, xorBytes_append (by simp [hc]; omega),
      ih _ (ct.drop 16) (by simp; omega) (by simp; omega)]

end CT.AES
