import Verif.Proof.Overlap
import Verif.Props.Stream

/-!
# Stream ciphers on buffers that overlap (C123)
-/

namespace CT.Props.Overlap
open CT.Props.Stream (chacha chacha_isStream)

/-- A packet function on one array with two pointers into it. -/
abbrev OvFn (σ : Type) := σ → Ov → Nat → Res (σ × Ov)

/-- The `n` bytes at offset `o` become what the packet function makes of the `n` bytes at offset `i` with separate buffers,
the rest of the array stays as it is, and the state afterwards is the same. -/
def Right {σ : Type} (f : PacketFn σ) (fo : OvFn σ) (s : σ) (mem : List U8) (o i n : Nat) : Prop :=
  ∃ s' c, c.length = n ∧ f s ⟨(mem.drop i).take n, List.replicate n 0, false⟩ n = .ok (s', ⟨(mem.drop i).take n, c, false⟩) ∧
    fo s ⟨mem, o, i⟩ n = .ok (s', ⟨mem.take o ++ c ++ mem.drop (o + n), o, i⟩)

/-- The bytes at offsets `o` to `o + n - 1`, which include message bytes if the buffers overlap, have no influence. -/
def Lost {σ : Type} (fo : OvFn σ) (s : σ) (o i n : Nat) : Prop :=
  ∀ mem mem' : List U8, o + n ≤ mem.length → mem.length = mem'.length → mem.take o = mem'.take o →
    mem.drop (o + n) = mem'.drop (o + n) → ∃ r, fo s ⟨mem, o, i⟩ n = .ok r ∧ fo s ⟨mem', o, i⟩ n = .ok r

/-- The array afterwards shows the keystream, which is the encryption of zeros: the bytes at distance `o - i` differ by it. -/
def Shown {σ : Type} (f : PacketFn σ) (fo : OvFn σ) (s : σ) (o i n : Nat) : Prop :=
  ∃ s' z, z.length = n ∧ f s ⟨List.replicate n 0, List.replicate n 0, false⟩ n = .ok (s', ⟨List.replicate n 0, z, false⟩) ∧
    ∀ mem : List U8, o + n ≤ mem.length → ∃ mem', fo s ⟨mem, o, i⟩ n = .ok (s', ⟨mem', o, i⟩) ∧
      ∀ j, j < n → mem'.getD (o + j) 0 ^^^ mem'.getD (i + j) 0 = z.getD j 0

/-! ### The byte steps -/

theorem ext_getD {a b : List U8} (hl : a.length = b.length) (h : ∀ j, j < a.length → a.getD j 0 = b.getD j 0) : a = b := by
  apply List.ext_getElem hl
  intro j h1 h2
  have := h j h1
  rwa [List.getD_eq_getElem?_getD, List.getD_eq_getElem?_getD, List.getElem?_eq_getElem h1, List.getElem?_eq_getElem h2] at this

theorem put_at (v : Ov) (j : Nat) (k : U8) (h : v.o + j < v.mem.length) :
    (v.put j k).mem.getD (v.o + j) 0 = v.mem.getD (v.i + j) 0 ^^^ k := by
  rw [Ov.put, List.getD_eq_getElem?_getD, List.getElem?_set_self h]; rfl

theorem getD_cons_sub (k : U8) (ks : List U8) (t : Nat) (h : 0 < t) : (k :: ks).getD t 0 = ks.getD (t - 1) 0 := by
  obtain ⟨u, rfl⟩ : ∃ u, t = u + 1 := ⟨t - 1, by omega⟩
  rfl

theorem xorFrom_get (ks : List U8) : ∀ (v : Ov) (j : Nat), v.o + j + ks.length ≤ v.mem.length →
    (v.o ≤ v.i ∨ v.i + j + ks.length ≤ v.o) → ∀ a, (v.xorFrom j ks).mem.getD a 0 =
      if v.o + j ≤ a ∧ a < v.o + j + ks.length then v.mem.getD (v.i + (a - v.o)) 0 ^^^ ks.getD (a - v.o - j) 0
      else v.mem.getD a 0 := by
  induction ks with
  | nil =>
    intro v j _ _ a
    rw [if_neg (by simp only [List.length_nil]; omega)]
    rfl
  | cons k ks ih =>
    intro v j h1 h2 a
    simp only [List.length_cons] at h1 h2 ⊢
    have e : ((v.put j k).xorFrom (j + 1) ks).mem.getD a 0 =
        if v.o + (j + 1) ≤ a ∧ a < v.o + (j + 1) + ks.length then
          (v.put j k).mem.getD (v.i + (a - v.o)) 0 ^^^ ks.getD (a - v.o - (j + 1)) 0
        else (v.put j k).mem.getD a 0 :=
      ih (v.put j k) (j + 1) (by simp only [Ov.put_o, Ov.put_length]; omega) (by simp only [Ov.put_o, Ov.put_i]; omega) a
    rw [Ov.xorFrom, e]
    by_cases ha : a = v.o + j
    · subst ha
      rw [if_neg (by omega), if_pos (by omega), put_at _ _ _ (by omega), show v.o + j - v.o = j by omega, Nat.sub_self]
      rfl
    · by_cases hb : v.o + (j + 1) ≤ a ∧ a < v.o + (j + 1) + ks.length
      · rw [if_pos hb, if_pos (by omega), Ov.put_get (by omega), getD_cons_sub _ _ _ (by omega)]
        congr 2
      · rw [if_neg hb, if_neg (by omega), Ov.put_get (by omega)]

theorem xored_right {mem : List U8} {o i n : Nat} {ks : List U8} (hk : ks.length = n) (hi : i + n ≤ mem.length)
    (ho : o + n ≤ mem.length) (h : o ≤ i ∨ i + n ≤ o) :
    (⟨mem, o, i⟩ : Ov).xored ks = ⟨mem.take o ++ xorBytes ((mem.drop i).take n) ks ++ mem.drop (o + n), o, i⟩ := by
  subst hk
  obtain ⟨e1, e2, e3⟩ := Ov.xorFrom_keep ks ⟨mem, o, i⟩ 0
  have hg := xorFrom_get ks ⟨mem, o, i⟩ 0 (by simpa using ho) (by simpa using h)
  have hx : (xorBytes ((mem.drop i).take ks.length) ks).length = ks.length := by
    rw [xorBytes_length, List.length_take, List.length_drop]; omega
  suffices hm : ((⟨mem, o, i⟩ : Ov).xorFrom 0 ks).mem =
      mem.take o ++ xorBytes ((mem.drop i).take ks.length) ks ++ mem.drop (o + ks.length) by
    rw [Ov.xored, ← hm]
    cases hv : (⟨mem, o, i⟩ : Ov).xorFrom 0 ks
    rw [hv] at e1 e2
    simp only at e1 e2
    rw [e1, e2]
  apply ext_getD
  · simp only [e3, List.length_append, hx, List.length_take, List.length_drop]; omega
  · intro a ha
    rw [hg a]
    simp only [Nat.add_zero, Nat.sub_zero]
    have hto : (mem.take o).length = o := by rw [List.length_take]; omega
    rw [List.getD_eq_getElem?_getD (l := _ ++ _ ++ _)]
    by_cases h1 : a < o
    · rw [if_neg (by omega), List.append_assoc, List.getElem?_append_left (by omega), List.getElem?_take, if_pos h1,
        List.getD_eq_getElem?_getD]
    · by_cases h2 : a < o + ks.length
      · rw [if_pos (by omega), List.getElem?_append_left (by rw [List.length_append, hx, hto]; exact h2),
          List.getElem?_append_right (by omega), hto, xorBytes, List.getElem?_zipWith, List.getElem?_take, if_pos (by omega),
          List.getElem?_drop, List.getD_eq_getElem?_getD, List.getD_eq_getElem?_getD,
          List.getElem?_eq_getElem (show i + (a - o) < mem.length by omega),
          List.getElem?_eq_getElem (show a - o < ks.length by omega)]
        rfl
      · rw [if_neg (by omega), List.getElem?_append_right (by rw [List.length_append, hx, hto]; omega), List.length_append, hx,
          hto, List.getElem?_drop, List.getD_eq_getElem?_getD]
        congr 2
        omega

theorem xorFrom_lost (ks : List U8) : ∀ (v v' : Ov) (j : Nat), v.o = v'.o → v.i = v'.i → v.mem.length = v'.mem.length →
    v.i < v.o → v.o + j + ks.length ≤ v.mem.length →
    (∀ a, a < v.o + j ∨ v.o + j + ks.length ≤ a → v.mem.getD a 0 = v'.mem.getD a 0) →
    v.xorFrom j ks = v'.xorFrom j ks := by
  induction ks with
  | nil =>
    intro v v' j h1 h2 h3 h4 h5 h6
    have : v.mem = v'.mem := ext_getD h3 fun a _ => h6 a (by simp only [List.length_nil]; omega)
    cases v; cases v'
    simp only at h1 h2 this
    rw [Ov.xorFrom, Ov.xorFrom, h1, h2, this]
  | cons k ks ih =>
    intro v v' j h1 h2 h3 h4 h5 h6
    simp only [List.length_cons] at h5 h6
    rw [Ov.xorFrom, Ov.xorFrom]
    refine ih _ _ _ h1 h2 (by simp only [Ov.put_length]; exact h3) h4 (by simp only [Ov.put_o, Ov.put_length]; omega) ?_
    intro a ha
    simp only [Ov.put_o] at ha
    by_cases hb : a = v.o + j
    · rw [hb, put_at _ _ _ (by omega), h1, put_at _ _ _ (by omega), h6 (v.i + j) (by omega), h2]
    · rw [Ov.put_get (by omega), Ov.put_get (by omega), h6 a (by omega)]

theorem xorFrom_shown (ks : List U8) : ∀ (v : Ov) (j : Nat), v.i < v.o → v.o + j + ks.length ≤ v.mem.length →
    (∀ a, a < v.o + j → (v.xorFrom j ks).mem.getD a 0 = v.mem.getD a 0) ∧
    ∀ t, t < ks.length → (v.xorFrom j ks).mem.getD (v.o + j + t) 0 =
      (v.xorFrom j ks).mem.getD (v.i + j + t) 0 ^^^ ks.getD t 0 := by
  induction ks with
  | nil => intro v j _ _; exact ⟨fun _ _ => rfl, fun t ht => absurd ht (Nat.not_lt_zero _)⟩
  | cons k ks ih =>
    intro v j h1 h2
    simp only [List.length_cons] at h2
    obtain ⟨i1, i2⟩ := ih (v.put j k) (j + 1) h1 (by simp only [Ov.put_o, Ov.put_length]; omega)
    simp only [Ov.put_o, Ov.put_i] at i1 i2
    rw [Ov.xorFrom]
    refine ⟨fun a ha => ?_, fun t ht => ?_⟩
    · rw [i1 a (by omega), Ov.put_get (by omega)]
    · rw [List.length_cons] at ht
      cases t with
      | zero =>
        simp only [Nat.add_zero]
        rw [i1 _ (by omega), i1 _ (by omega), put_at _ _ _ (by omega), Ov.put_get (by omega)]
        rfl
      | succ t =>
        have := i2 t (by omega)
        rw [show v.o + j + (t + 1) = v.o + (j + 1) + t by omega, show v.i + j + (t + 1) = v.i + (j + 1) + t by omega, this]
        rfl

/-! ### From the byte steps to the packet functions -/

/-- `fo` does byte steps with the keystream of `f`. -/
def Steps {σ : Type} (fo : OvFn σ) (Inv : σ → Prop) (ok : Nat → Prop) (ks : σ → Nat → List U8) (next : σ → Nat → σ) : Prop :=
  ∀ s n, Inv s → ok n → ∀ v : Ov, v.Fits n → fo s v n = .ok (next s n, v.xored (ks s n))

variable {σ : Type} {f : PacketFn σ} {fo : OvFn σ} {Inv : σ → Prop} {ok : Nat → Prop} {ks : σ → Nat → List U8}
  {next : σ → Nat → σ}

theorem right_of (h : IsStream f Inv ok ks next) (ho : Steps fo Inv ok ks next) {s : σ} (hs : Inv s) {n : Nat} (hn : ok n)
    (mem : List U8) (o i : Nat) (h1 : i + n ≤ mem.length) (h2 : o + n ≤ mem.length) (h3 : o ≤ i ∨ i + n ≤ o) :
    Right f fo s mem o i n := by
  have hl : ((mem.drop i).take n).length = n := by rw [List.length_take, List.length_drop]; omega
  obtain ⟨-, hk, -⟩ := h s n hs hn
  have e := h.single (s := s) ((mem.drop i).take n) hs (by rw [hl]; exact hn)
  rw [hl] at e
  refine ⟨_, _, ?_, e, ?_⟩
  · rw [xorBytes_length, hl, hk, Nat.min_self]
  · rw [ho s n hs hn _ ⟨h1, h2, by rcases h3 with h | h; exacts [.inl h, .inr (.inr h)]⟩, xored_right hk h1 h2 h3]

theorem lost_of (h : IsStream f Inv ok ks next) (ho : Steps fo Inv ok ks next) {s : σ} (hs : Inv s) {n : Nat} (hn : ok n)
    (o i : Nat) (h3 : i + 4 ≤ o) : Lost fo s o i n := by
  intro mem mem' h1 h2 h4 h5
  obtain ⟨-, hk, -⟩ := h s n hs hn
  refine ⟨_, ho s n hs hn _ ⟨by simp only []; omega, h1, .inr (.inl h3)⟩, ?_⟩
  rw [ho s n hs hn _ ⟨by simp only []; omega, by simp only []; omega, .inr (.inl h3)⟩]
  congr 2
  refine (xorFrom_lost (ks s n) ⟨mem, o, i⟩ ⟨mem', o, i⟩ 0 rfl rfl h2 (by simp only []; omega) (by simp only [hk]; omega) ?_).symm
  intro a ha
  simp only [Nat.add_zero, hk] at ha ⊢
  rw [List.getD_eq_getElem?_getD, List.getD_eq_getElem?_getD]
  rcases ha with ha | ha
  · have := congrArg (fun l => l[a]?) h4
    simp only [List.getElem?_take, if_pos ha] at this
    rw [this]
  · have := congrArg (fun l => l[a - (o + n)]?) h5
    simp only [List.getElem?_drop] at this
    rw [show o + n + (a - (o + n)) = a by omega] at this
    rw [this]

theorem xorBytes_zero (k : List U8) : xorBytes (List.replicate k.length 0) k = k := by
  induction k with
  | nil => rfl
  | cons x k ih =>
    rw [List.length_cons, List.replicate_succ, xorBytes_cons, ih, show (0 : U8) ^^^ x = x from BitVec.zero_xor]

theorem shown_of (h : IsStream f Inv ok ks next) (ho : Steps fo Inv ok ks next) {s : σ} (hs : Inv s) {n : Nat} (hn : ok n)
    (o i : Nat) (h3 : i + 4 ≤ o) : Shown f fo s o i n := by
  obtain ⟨-, hk, -⟩ := h s n hs hn
  have e := h.single (s := s) (List.replicate n 0) hs (by rw [List.length_replicate]; exact hn)
  rw [List.length_replicate] at e
  have hz : xorBytes (List.replicate n 0) (ks s n) = ks s n := by
    conv => lhs; rw [← hk]
    rw [hk]
    have := xorBytes_zero (ks s n)
    rwa [hk] at this
  rw [hz] at e
  refine ⟨_, _, hk, e, fun mem h1 => ?_⟩
  obtain ⟨e1, e2, e3⟩ := Ov.xorFrom_keep (ks s n) ⟨mem, o, i⟩ 0
  refine ⟨((⟨mem, o, i⟩ : Ov).xorFrom 0 (ks s n)).mem, ?_, fun j hj => ?_⟩
  · rw [ho s n hs hn _ ⟨by simp only []; omega, h1, .inr (.inl h3)⟩, Ov.xored]
    cases hv : (⟨mem, o, i⟩ : Ov).xorFrom 0 (ks s n)
    rw [hv] at e1 e2
    simp only at e1 e2
    rw [e1, e2]
  · have := (xorFrom_shown (ks s n) ⟨mem, o, i⟩ 0 (by simp only []; omega) (by simp only [hk]; omega)).2 j (by omega)
    simp only [Nat.add_zero] at this
    rw [this, BitVec.xor_comm, ← BitVec.xor_assoc, BitVec.xor_self, BitVec.zero_xor]

/-- If message bytes are overwritten before they are read, some array is encrypted wrongly. -/
theorem wrong_of (h : IsStream f Inv ok ks next) (ho : Steps fo Inv ok ks next) {s : σ} (hs : Inv s) {n : Nat} (hn : ok n)
    (o i : Nat) (h3 : i + 4 ≤ o) (h4 : o < i + n) (len : Nat) (hlen : o + n ≤ len) :
    ¬ ∀ mem : List U8, mem.length = len → Right f fo s mem o i n := by
  intro hall
  have hl : (List.replicate len (0 : U8)).length = len := List.length_replicate
  obtain ⟨r, r1, r2⟩ := lost_of h ho hs hn o i h3 (List.replicate len 0) ((List.replicate len 0).set o 1)
    (by rw [hl]; exact hlen) (by rw [List.length_set]) (by rw [List.take_set_of_le (Nat.le_refl _)])
    (by rw [List.drop_set_of_lt (by omega)])
  obtain ⟨s1, c1, l1, f1, g1⟩ := hall _ hl
  obtain ⟨s2, c2, l2, f2, g2⟩ := hall ((List.replicate len 0).set o 1) (by rw [List.length_set, hl])
  rw [r1, Res.ok_inj] at g1
  rw [r2, Res.ok_inj] at g2
  have g := g1.symm.trans g2
  rw [Prod.mk.injEq, Ov.mk.injEq] at g
  have hc : c1 = c2 := by
    have := congrArg (fun l => (l.drop o).take n) g.2.1
    simp only [List.append_assoc] at this
    rw [List.drop_left' (by rw [List.length_take, hl]; omega), List.drop_left' (by rw [List.length_take, List.length_set, hl]; omega),
      List.take_left' l1, List.take_left' l2] at this
    exact this
  have hlen' : ∀ m : List U8, m.length = len → ((m.drop i).take n).length = n := fun m hm => by
    rw [List.length_take, List.length_drop]; omega
  have e1 := h.single (s := s) (((List.replicate len 0).drop i).take n) hs (by rw [hlen' _ hl]; exact hn)
  have e2 := h.single (s := s) ((((List.replicate len 0).set o 1).drop i).take n) hs
    (by rw [hlen' _ (by rw [List.length_set, hl])]; exact hn)
  rw [hlen' _ hl, f1, Res.ok_inj, Prod.mk.injEq, Io.mk.injEq] at e1
  rw [hlen' _ (by rw [List.length_set, hl]), f2, Res.ok_inj, Prod.mk.injEq, Io.mk.injEq] at e2
  obtain ⟨-, hk, -⟩ := h s n hs hn
  have e := e1.2.2.1.symm.trans (hc.trans e2.2.2.1)
  have e' := congrArg (xorBytes · (ks s n)) e
  beta_reduce at e'
  rw [xorBytes_xorBytes _ _ (by rw [hlen' _ hl, hk]),
    xorBytes_xorBytes _ _ (by rw [hlen' _ (by rw [List.length_set, hl]), hk])] at e'
  have := congrArg (fun l => l[o - i]?) e'
  simp only [List.getElem?_take, if_pos (show o - i < n by omega), List.getElem?_drop, show i + (o - i) = o by omega] at this
  rw [List.getElem?_set_self (by rw [hl]; omega), List.getElem?_eq_getElem (by rw [hl]; omega), List.getElem_replicate] at this
  cases this

/-! ### The ciphers -/

/-- The packet function of ChaCha for sizes that are lengths of lists. -/
abbrev chachaOv (rounds : Nat) : OvFn ChaCha.State := fun s v n => Ov.chacha rounds s v (BitVec.ofNat 64 n)

theorem chachaOv_state {r : Nat} {cs cs' : ChaCha.State} {v v' : Ov} {size : U64}
    (h : Ov.chacha r cs v size = .ok (cs', v')) :
    cs' = (ChaCha.ksLoop r (((size.toNat + 3) / 4 + 15) / 16) cs 1 []).1 := by
  simp only [Ov.chacha] at h
  split at h
  · cases h
  split at h
  · cases h
  obtain ⟨x, _, hx⟩ := Res.bind_eq_ok h
  obtain ⟨y, _, hy⟩ := Res.bind_eq_ok hx
  exact (congrArg Prod.fst (Res.ok_inj.mp hy)).symm

theorem chacha_steps (r : Nat) (key nonce : List U8) :
    Steps (chachaOv r) (fun s => ChaCha.Keyed s key nonce) (fun n => n < 2 ^ 31)
      (fun _ n => (Spec.ChaCha.keystream r key 1 nonce ((n + 63) / 64)).take n)
      (fun s n => (ChaCha.ksLoop r (((n + 3) / 4 + 15) / 16) s 1 []).1) := by
  intro s n hs hn v hf
  have hn64 : (BitVec.ofNat 64 n).toNat = n := by rw [BitVec.toNat_ofNat, Nat.mod_eq_of_lt (by omega)]
  obtain ⟨cs', h1, h2⟩ := Ov.chacha_eq hs r (io := v) (size := BitVec.ofNat 64 n) (by omega) (by rw [hn64]; exact hf)
  have h3 := chachaOv_state h2
  rw [hn64] at h2 h3
  rw [chachaOv, h2, h3]

theorem hc128_steps : Steps Ov.hc128 (fun _ => True) (fun n => n ≤ 2 ^ 33 - 8) HC128.pktKs HC128.pktNext :=
  fun s _ _ hn _ hf => Ov.hc128_eq s hn hf

theorem rabbit_steps : Steps Ov.rabbit (fun _ => True) (fun _ => True) Rabbit.pktKs Rabbit.pktNext :=
  fun s _ _ _ _ hf => Ov.rabbit_eq s hf

theorem sosemanuk_steps : Steps Ov.sosemanuk (fun _ => True) (fun _ => True)
    (fun cs n => (blkBytes Sosemanuk.block (n / 16 + 1) cs).take n) (fun cs n => blkState Sosemanuk.block (n / 16 + 1) cs) :=
  fun s n _ _ v hf => Ov.sosemanuk_eq s v n hf

theorem aes_ctr_steps {σ : Type} (blk : σ → σ × Quad) : Steps (fun s v n => Ov.aesCtr blk s v n) (fun _ => True)
    (fun n => n % 4 ≤ 1) (AES.ctrKs blk) (AES.ctrNext blk) :=
  fun s _ _ hn _ hf => Ov.aesCtr_eq blk s hn hf

/-- C123, ChaCha, the part that holds: the output starts at or before the input, or after its end. -/
theorem chacha_overlap_partial (rounds : Nat) (key nonce : List U8) (hk : key.length = 32) (hv : nonce.length = 12)
    (cs : ChaCha.State) (hcs : ChaCha.History rounds key nonce cs) (n : Nat) (hn : n < 2 ^ 31) (mem : List U8) (o i : Nat)
    (h1 : i + n ≤ mem.length) (h2 : o + n ≤ mem.length) (h3 : o ≤ i ∨ i + n ≤ o) :
    Right (chacha rounds) (chachaOv rounds) cs mem o i n :=
  right_of (chacha_isStream rounds key nonce) (chacha_steps rounds key nonce) (hcs.keyed hk hv) hn mem o i h1 h2 h3

example : Right (chacha 20) (chachaOv 20) (ChaCha.init (List.replicate 32 7) (List.replicate 12 9)) (List.replicate 56 5) 0 16 40 :=
  chacha_overlap_partial 20 _ _ (by decide) (by decide) _ .init 40 (by decide) _ 0 16 (by decide) (by decide) (.inl (by decide))

/-- C123 is false for ChaCha, for every state: if the output starts four bytes or more after the input and inside it, the
message bytes from there on have no influence on the result, the array shows the keystream, and so some arrays are
encrypted wrongly. -/
theorem chacha_overlap_refuted (rounds : Nat) (key nonce : List U8) (hk : key.length = 32) (hv : nonce.length = 12)
    (cs : ChaCha.State) (hcs : ChaCha.History rounds key nonce cs) (n : Nat) (hn : n < 2 ^ 31) (o i : Nat) (h3 : i + 4 ≤ o)
    (h4 : o < i + n) : Lost (chachaOv rounds) cs o i n ∧ Shown (chacha rounds) (chachaOv rounds) cs o i n ∧
    ∀ len, o + n ≤ len → ¬ ∀ mem : List U8, mem.length = len → Right (chacha rounds) (chachaOv rounds) cs mem o i n :=
  ⟨lost_of (chacha_isStream rounds key nonce) (chacha_steps rounds key nonce) (hcs.keyed hk hv) hn o i h3, shown_of (chacha_isStream rounds key nonce) (chacha_steps rounds key nonce) (hcs.keyed hk hv) hn o i h3,
    fun len hl => wrong_of (chacha_isStream rounds key nonce) (chacha_steps rounds key nonce) (hcs.keyed hk hv) hn o i h3 h4 len hl⟩

example : Lost (chachaOv 20) (ChaCha.init (List.replicate 32 7) (List.replicate 12 9)) 16 0 40 :=
  (chacha_overlap_refuted 20 _ _ (by decide) (by decide) _ .init 40 (by decide) 16 0 (by decide) (by decide)).1

/-- C123, HC-128, the part that holds: the output starts at or before the input, or after its end. -/
theorem hc128_overlap_partial (cs : HC128.State) (n : Nat) (hn : n ≤ 2 ^ 33 - 8) (mem : List U8) (o i : Nat)
    (h1 : i + n ≤ mem.length) (h2 : o + n ≤ mem.length) (h3 : o ≤ i ∨ i + n ≤ o) :
    Right HC128.processPacket Ov.hc128 cs mem o i n :=
  right_of HC128.isStream hc128_steps trivial hn mem o i h1 h2 h3

example (cs : HC128.State) : Right HC128.processPacket Ov.hc128 cs (List.replicate 56 5) 0 16 40 :=
  hc128_overlap_partial cs 40 (by decide) _ 0 16 (by decide) (by decide) (.inl (by decide))

/-- C123 is false for HC-128, for every state: if the output starts four bytes or more after the input and inside it, the
message bytes from there on have no influence on the result, the array shows the keystream, and so some arrays are
encrypted wrongly. -/
theorem hc128_overlap_refuted (cs : HC128.State) (n : Nat) (hn : n ≤ 2 ^ 33 - 8) (o i : Nat) (h3 : i + 4 ≤ o)
    (h4 : o < i + n) : Lost Ov.hc128 cs o i n ∧ Shown HC128.processPacket Ov.hc128 cs o i n ∧
    ∀ len, o + n ≤ len → ¬ ∀ mem : List U8, mem.length = len → Right HC128.processPacket Ov.hc128 cs mem o i n :=
  ⟨lost_of HC128.isStream hc128_steps trivial hn o i h3, shown_of HC128.isStream hc128_steps trivial hn o i h3,
    fun len hl => wrong_of HC128.isStream hc128_steps trivial hn o i h3 h4 len hl⟩

example (cs : HC128.State) : Lost Ov.hc128 cs 16 0 40 := (hc128_overlap_refuted cs 40 (by decide) 16 0 (by decide) (by decide)).1

/-- C123, Rabbit, the part that holds: the output starts at or before the input, or after its end. -/
theorem rabbit_overlap_partial (cs : Rabbit.State) (n : Nat) (mem : List U8) (o i : Nat)
    (h1 : i + n ≤ mem.length) (h2 : o + n ≤ mem.length) (h3 : o ≤ i ∨ i + n ≤ o) :
    Right Rabbit.processPacket Ov.rabbit cs mem o i n :=
  right_of Rabbit.isStream rabbit_steps trivial trivial mem o i h1 h2 h3

example (cs : Rabbit.State) : Right Rabbit.processPacket Ov.rabbit cs (List.replicate 56 5) 0 16 40 :=
  rabbit_overlap_partial cs 40 _ 0 16 (by decide) (by decide) (.inl (by decide))

/-- C123 is false for Rabbit, for every state: if the output starts four bytes or more after the input and inside it, the
message bytes from there on have no influence on the result, the array shows the keystream, and so some arrays are
encrypted wrongly. -/
theorem rabbit_overlap_refuted (cs : Rabbit.State) (n : Nat) (o i : Nat) (h3 : i + 4 ≤ o)
    (h4 : o < i + n) : Lost Ov.rabbit cs o i n ∧ Shown Rabbit.processPacket Ov.rabbit cs o i n ∧
    ∀ len, o + n ≤ len → ¬ ∀ mem : List U8, mem.length = len → Right Rabbit.processPacket Ov.rabbit cs mem o i n :=
  ⟨lost_of Rabbit.isStream rabbit_steps trivial trivial o i h3, shown_of Rabbit.isStream rabbit_steps trivial trivial o i h3,
    fun len hl => wrong_of Rabbit.isStream rabbit_steps trivial trivial o i h3 h4 len hl⟩

example (cs : Rabbit.State) : Lost Ov.rabbit cs 16 0 40 := (rabbit_overlap_refuted cs 40 16 0 (by decide) (by decide)).1

/-- C123, Sosemanuk, the part that holds: the output starts at or before the input, or after its end. -/
theorem sosemanuk_overlap_partial (cs : Sosemanuk.State) (n : Nat) (mem : List U8) (o i : Nat)
    (h1 : i + n ≤ mem.length) (h2 : o + n ≤ mem.length) (h3 : o ≤ i ∨ i + n ≤ o) :
    Right Sosemanuk.processPacket Ov.sosemanuk cs mem o i n :=
  right_of Sosemanuk.isStream sosemanuk_steps trivial trivial mem o i h1 h2 h3

example (cs : Sosemanuk.State) : Right Sosemanuk.processPacket Ov.sosemanuk cs (List.replicate 56 5) 0 16 40 :=
  sosemanuk_overlap_partial cs 40 _ 0 16 (by decide) (by decide) (.inl (by decide))

/-- C123 is false for Sosemanuk, for every state: if the output starts four bytes or more after the input and inside it, the
message bytes from there on have no influence on the result, the array shows the keystream, and so some arrays are
encrypted wrongly. -/
theorem sosemanuk_overlap_refuted (cs : Sosemanuk.State) (n : Nat) (o i : Nat) (h3 : i + 4 ≤ o)
    (h4 : o < i + n) : Lost Ov.sosemanuk cs o i n ∧ Shown Sosemanuk.processPacket Ov.sosemanuk cs o i n ∧
    ∀ len, o + n ≤ len → ¬ ∀ mem : List U8, mem.length = len → Right Sosemanuk.processPacket Ov.sosemanuk cs mem o i n :=
  ⟨lost_of Sosemanuk.isStream sosemanuk_steps trivial trivial o i h3, shown_of Sosemanuk.isStream sosemanuk_steps trivial trivial o i h3,
    fun len hl => wrong_of Sosemanuk.isStream sosemanuk_steps trivial trivial o i h3 h4 len hl⟩

example (cs : Sosemanuk.State) : Lost Ov.sosemanuk cs 16 0 40 := (sosemanuk_overlap_refuted cs 40 16 0 (by decide) (by decide)).1

/-- C123, AES counter mode (`enc` stands for the block function of each of the three variants), the part that holds: the output starts at or before the input, or after its end. -/
theorem aes_ctr_overlap_partial (enc : List U32 → Quad → Quad) (cs : AES.State) (n : Nat) (hn : n % 4 ≤ 1) (mem : List U8) (o i : Nat)
    (h1 : i + n ≤ mem.length) (h2 : o + n ≤ mem.length) (h3 : o ≤ i ∨ i + n ≤ o) :
    Right (fun s io n => AES.ctrWith (AES.ctrBlk enc) s io n) (fun s v n => Ov.aesCtr (AES.ctrBlk enc) s v n) cs mem o i n :=
  right_of (AES.isStream (AES.ctrBlk enc)) (aes_ctr_steps (AES.ctrBlk enc)) trivial hn mem o i h1 h2 h3

example (enc : List U32 → Quad → Quad) (cs : AES.State) :=
  aes_ctr_overlap_partial enc cs 41 (by decide) (List.replicate 57 5) 0 16 (by decide) (by decide) (.inl (by decide))

/-- C123 is false for AES counter mode, for every state: if the output starts four bytes or more after the input and inside it, the
message bytes from there on have no influence on the result, the array shows the keystream, and so some arrays are
encrypted wrongly. -/
theorem aes_ctr_overlap_refuted (enc : List U32 → Quad → Quad) (cs : AES.State) (n : Nat) (hn : n % 4 ≤ 1) (o i : Nat) (h3 : i + 4 ≤ o)
    (h4 : o < i + n) : Lost (fun s v n => Ov.aesCtr (AES.ctrBlk enc) s v n) cs o i n ∧ Shown (fun s io n => AES.ctrWith (AES.ctrBlk enc) s io n) (fun s v n => Ov.aesCtr (AES.ctrBlk enc) s v n) cs o i n ∧
    ∀ len, o + n ≤ len → ¬ ∀ mem : List U8, mem.length = len → Right (fun s io n => AES.ctrWith (AES.ctrBlk enc) s io n) (fun s v n => Ov.aesCtr (AES.ctrBlk enc) s v n) cs mem o i n :=
  ⟨lost_of (AES.isStream (AES.ctrBlk enc)) (aes_ctr_steps (AES.ctrBlk enc)) trivial hn o i h3, shown_of (AES.isStream (AES.ctrBlk enc)) (aes_ctr_steps (AES.ctrBlk enc)) trivial hn o i h3,
    fun len hl => wrong_of (AES.isStream (AES.ctrBlk enc)) (aes_ctr_steps (AES.ctrBlk enc)) trivial hn o i h3 h4 len hl⟩

/-- Instances of the hypotheses: 40 bytes moved down by 16, as when an initialisation vector is removed from the front, and
up by 16, as when one is put in front. -/
example : (0 ≤ 16 ∨ 16 + 40 ≤ 0) ∧ 16 + 40 ≤ (List.replicate 56 (0 : U8)).length ∧ 0 + 4 ≤ 16 ∧ 16 < 0 + 40 ∧ 40 % 4 ≤ 1 := by
  decide

set_option maxRecDepth 100000 in
/-- Rabbit with the all-zero key, eight bytes moved up by four: two messages with the same first four bytes. -/
example : Ov.rabbit (Rabbit.loadKey (List.replicate 16 0)) ⟨[1, 2, 3, 4, 5, 6, 7, 8, 0, 0, 0, 0], 4, 0⟩ 8 =
    Ov.rabbit (Rabbit.loadKey (List.replicate 16 0)) ⟨[1, 2, 3, 4, 9, 9, 9, 9, 0, 0, 0, 0], 4, 0⟩ 8 := by
  decide +kernel

end CT.Props.Overlap
