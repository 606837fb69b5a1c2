import Verif.Model.TagTrace
import Verif.Props.HMAC

/-!
# C109, C110: how many steps the comparisons of tags make
-/

namespace CT.Props.HMAC
open CT CT.HMAC CT.Spec.HMAC

/-! ### Specification -/

/-- Number of leading positions at which two strings agree. -/
def agree : List U8 → List U8 → Nat
  | x :: xs, y :: ys => if x = y then agree xs ys + 1 else 0
  | _, _ => 0

/-- A forger who has not got the key but may present tags and watch: they either give up with a tag, or
present a tag and go on depending on the verdict and the number of comparisons made. -/
inductive Forger where
  | result (tag : List U8)
  | present (tag : List U8) (next : Int × Nat → Forger)

/-- What the forger ends with, and how many tags they presented. -/
def Forger.play (answer : List U8 → Int × Nat) : Forger → List U8 × Nat
  | .result tag => (tag, 0)
  | .present tag next => let r := play answer (next (answer tag)); (r.1, r.2 + 1)

/-! ### The count changes nothing -/

theorem compareLoopT_fst (tag newTag : List U8) (n : Nat) : ∀ (i k : Nat),
    (do let r ← compareLoopT tag newTag n i k; return r.1 : Res Int) = compareLoop tag newTag n i := by
  induction n with
  | zero => intro i k; rfl
  | succ n ih =>
    intro i k
    rw [compareLoopT, compareLoop]
    cases Mem.rd tag i with
    | ub w => rfl
    | ok a =>
      cases Mem.rd newTag i with
      | ub w => rfl
      | ok b =>
        simp only [Res.ok_bind]
        by_cases h : a = b
        · simp only [h, ne_eq, not_true_eq_false, if_false]; exact ih (i + 1) (k + 1)
        · simp only [ne_eq, h, not_false_eq_true, if_true]; rfl

/-- C109, the count is a count: without it, validation is that of the model. -/
theorem hmac_validation_traced_erase (junk : Nat → U8) (cs : State) (tag msg : List U8) (n : Nat) (len : Int) :
    (do let r ← tagValidationT junk cs tag msg n len; return r.1 : Res Int) = tagValidation junk cs tag msg n len := by
  rw [tagValidationT, tagValidation]
  split
  · rfl
  · simp only []
    cases tagGeneration junk cs ((List.range len.toNat).map junk) msg n len with
    | ub w => rfl
    | ok t => exact compareLoopT_fst tag t len.toNat 0 0

/-! ### How many comparisons are made -/

theorem compareLoopT_ok (p q a b : List U8) (hp : p.length = q.length) (n : Nat) : ∀ (k : Nat), n ≤ a.length → n ≤ b.length →
    compareLoopT (p ++ a) (q ++ b) n p.length k =
      .ok (if a.take n = b.take n then 1 else 0, k + min n (agree (a.take n) (b.take n) + 1)) := by
  induction n generalizing p q a b with
  | zero => intro k _ _; simp [compareLoopT]
  | succ n ih =>
    intro k ha hb
    cases a with
    | nil => simp at ha
    | cons x a =>
      cases b with
      | nil => simp at hb
      | cons y b =>
        have h1 := Mem.rd_append_right p (x :: a) 0
        have h2 := Mem.rd_append_right q (y :: b) 0
        rw [Nat.add_zero] at h1 h2
        rw [compareLoopT, h1, hp, h2]
        simp only [Mem.rd, List.getElem?_cons_zero, Res.ok_bind, List.take_succ_cons, List.cons.injEq, agree]
        by_cases e : x = y
        · subst e
          have := ih (p ++ [x]) (q ++ [x]) a b (by simp [hp]) (k + 1) (by simpa using ha) (by simpa using hb)
          simp only [List.append_assoc, List.singleton_append, List.length_append, List.length_singleton] at this
          simp only [ne_eq, not_true_eq_false, if_false, true_and, if_true]
          rw [← hp, this]
          congr 2
          omega
        · simp only [ne_eq, e, not_false_eq_true, if_true, false_and, if_false]
          congr 2
          omega

/-- C109, exactly: validation makes one comparison more than the number of leading bytes of the tag
that are right, and `n` if all are. -/
theorem hmac_validation_comparisons (junk junk' : Nat → U8) (k msg ek em tag : List U8) (n : Nat)
    (hk : k.length + 128 < 2 ^ 31) (h0 : msg ≠ []) (hm : msg.length + 192 < 2 ^ 31) (hn : n ≤ 32) (ht : n ≤ tag.length) :
    (do let cs ← loadKey junk (k ++ ek) k.length
        tagValidationT junk' cs tag (msg ++ em) msg.length n) =
      .ok (if tag.take n = (hmac k msg).take n then 1 else 0,
        min n (agree (tag.take n) ((hmac k msg).take n) + 1)) := by
  rw [hmac_load_key_normalises junk k ek hk]
  simp only [Res.ok_bind, tagValidationT]
  rw [if_neg (by omega)]
  have := tagGeneration_ok junk' k ((List.range n).map junk') msg em n h0 hm hn (by simp)
  rw [keyState] at this
  simp only [Int.toNat_natCast]
  rw [this]
  simp only [Res.ok_bind]
  have hd : ((List.range n).map junk').drop n = [] := List.drop_eq_nil_of_le (by simp)
  rw [hd, List.append_nil]
  have lh := hmac_length k msg
  have := compareLoopT_ok [] [] tag ((hmac k msg).take n) rfl n 0 ht (by simp [lh, hn])
  simp only [List.nil_append, List.length_nil, Nat.zero_add] at this
  rw [this, List.take_take, Nat.min_self]

/-- Non-trivial instance. -/
example : (do let cs ← loadKey (fun _ => 1) ([1, 2] ++ []) 2
              tagValidationT (fun _ => 9) cs ((hmac [1, 2] [3]).take 16) ([3] ++ []) 1 16) =
    .ok (if ((hmac [1, 2] [3]).take 16).take 16 = (hmac [1, 2] [3]).take 16 then 1 else 0,
      min 16 (agree (((hmac [1, 2] [3]).take 16).take 16) ((hmac [1, 2] [3]).take 16) + 1)) :=
  hmac_validation_comparisons (fun _ => 1) (fun _ => 9) [1, 2] [3] [] [] ((hmac [1, 2] [3]).take 16) 16
    (by simp) (by simp) (by simp) (by simp) (by simp [hmac_length])

/-! ### A forger -/

/-- Try the values `b`, `b + 1`, ... for the byte after `pre`; the last one is taken without trying. -/
def tryByte (m : Nat) (pre : List U8) (next : List U8 → Forger) : Nat → U8 → Forger
  | 0, b => next (pre ++ [b])
  | c + 1, b => .present (pre ++ [b] ++ List.replicate m 0) fun r =>
      if r.1 = 1 then .result (pre ++ [b] ++ List.replicate m 0)
      else if pre.length + 2 ≤ r.2 then next (pre ++ [b]) else tryByte m pre next c (b + 1)

/-- One byte after the other. -/
def forger : Nat → List U8 → Forger
  | 0, pre => .result pre
  | m + 1, pre => tryByte m pre (forger m) 255 0

theorem agree_append (p a b : List U8) : agree (p ++ a) (p ++ b) = p.length + agree a b := by
  induction p with
  | nil => simp
  | cons x p ih => simp [agree, ih]; omega

theorem byte_sub_one (b x : U8) (c : Nat) (h : (x - b).toNat < c + 2) (hne : x ≠ b) : (x - (b + 1)).toNat < c + 1 := by
  have hb := b.isLt
  have hx := x.isLt
  have hne' : x.toNat ≠ b.toNat := fun e => hne (BitVec.eq_of_toNat_eq e)
  have h1 : (1 : U8).toNat = 1 := rfl
  simp only [BitVec.toNat_sub, BitVec.toNat_add, h1] at h ⊢
  omega

theorem tryByte_wins {answer : List U8 → Int × Nat} {n : Nat} {good : List U8} (hg : good.length = n)
    (ha : ∀ t, t.length = n → answer t = (if t = good then 1 else 0, min n (agree t good + 1)))
    {m : Nat} {pre rest : List U8} {x : U8} (he : good = pre ++ x :: rest) (hm : rest.length = m)
    {next : List U8 → Forger} {B : Nat}
    (hnext : (next (pre ++ [x])).play answer = (good, ((next (pre ++ [x])).play answer).2) ∧
      ((next (pre ++ [x])).play answer).2 ≤ B) :
    ∀ (c : Nat) (b : U8), (x - b).toNat < c + 1 →
      ((tryByte m pre next c b).play answer).1 = good ∧ ((tryByte m pre next c b).play answer).2 ≤ c + B := by
  intro c
  induction c with
  | zero =>
    intro b h
    have hb : x = b := by
      have h1 : x - b = 0 := BitVec.eq_of_toNat_eq (by simpa using h)
      have h2 := congrArg (· + b) h1
      simpa [BitVec.sub_add_cancel] using h2
    subst hb
    rw [tryByte]
    exact ⟨by rw [hnext.1], by omega⟩
  | succ c ih =>
    intro b h
    have hl : (pre ++ [b] ++ List.replicate m 0).length = n := by
      rw [← hg, he]; simp [hm]
    rw [tryByte, Forger.play]
    simp only []
    rw [ha _ hl]
    by_cases h1 : pre ++ [b] ++ List.replicate m 0 = good
    · simp only [h1, if_true, Forger.play]
      exact ⟨trivial, by omega⟩
    · simp only [h1, if_false]
      rw [if_neg (by decide)]
      by_cases h2 : x = b
      · subst h2
        have h3 : pre.length + 2 ≤ min n (agree (pre ++ [x] ++ List.replicate m 0) good + 1) := by
          have e : agree (pre ++ [x] ++ List.replicate m 0) good = pre.length + 1 + agree (List.replicate m 0) rest := by
            rw [he, show pre ++ x :: rest = pre ++ [x] ++ rest by simp, agree_append]
            simp
          have hn : pre.length + 1 + m = n := by rw [← hg, he]; simp [hm]; omega
          have h4 : m ≠ 0 := by
            intro h0
            subst h0
            have : rest = [] := List.length_eq_zero_iff.mp hm
            apply h1
            rw [he, this]
            simp
          rw [e]
          omega
        rw [if_pos h3]
        exact ⟨by rw [hnext.1], by omega⟩
      · have h3 : ¬ pre.length + 2 ≤ min n (agree (pre ++ [b] ++ List.replicate m 0) good + 1) := by
          have e : agree (pre ++ [b] ++ List.replicate m 0) good = pre.length := by
            rw [he, List.append_assoc, agree_append]
            have h4 : ¬ b = x := fun e => h2 e.symm
            simp [agree, h4]
          rw [e]
          omega
        rw [if_neg h3]
        obtain ⟨g1, g2⟩ := ih (b + 1) (byte_sub_one b x c h h2)
        exact ⟨g1, by omega⟩

theorem forger_wins {answer : List U8 → Int × Nat} {n : Nat} {good : List U8} (hg : good.length = n)
    (ha : ∀ t, t.length = n → answer t = (if t = good then 1 else 0, min n (agree t good + 1))) :
    ∀ (m : Nat) (pre rest : List U8), good = pre ++ rest → rest.length = m →
      ((forger m pre).play answer).1 = good ∧ ((forger m pre).play answer).2 ≤ 255 * m := by
  intro m
  induction m with
  | zero =>
    intro pre rest he hr
    have : rest = [] := List.length_eq_zero_iff.mp hr
    rw [this, List.append_nil] at he
    rw [forger, Forger.play]
    exact ⟨he.symm, by omega⟩
  | succ m ih =>
    intro pre rest he hr
    cases rest with
    | nil => simp at hr
    | cons x rest =>
      have hm : rest.length = m := by simpa using hr
      obtain ⟨h1, h2⟩ := ih (pre ++ [x]) rest (by rw [he]; simp) hm
      obtain ⟨g1, g2⟩ := tryByte_wins hg ha he hm (next := forger m) (B := 255 * m)
        ⟨Prod.ext h1 rfl, h2⟩ 255 0 (by have := (x - 0).isLt; omega)
      rw [forger]
      exact ⟨g1, by omega⟩

/-- C109, refuted in the strongest way: one and the same forger, who sees the verdict and the number of
comparisons only, ends with a tag of `n` bytes that is valid for the given message after presenting at
most `255 n` tags, whatever the key is and whatever the message is. -/
theorem hmac_forgery_by_timing (n : Nat) (hn : n ≤ 32) : ∃ F : Forger,
    ∀ (junk junk' : Nat → U8) (k msg : List U8), k.length + 128 < 2 ^ 31 → msg ≠ [] → msg.length + 192 < 2 ^ 31 →
    ∀ answer : List U8 → Int × Nat,
      (∀ t, t.length = n → (do let cs ← loadKey junk k k.length
                               tagValidationT junk' cs t msg msg.length n) = .ok (answer t)) →
      (F.play answer).1 = (hmac k msg).take n ∧ (F.play answer).2 ≤ 255 * n := by
  refine ⟨forger n [], fun junk junk' k msg hk h0 hm answer h => ?_⟩
  have hl : ((hmac k msg).take n).length = n := by rw [List.length_take, hmac_length]; omega
  refine forger_wins hl (fun t ht => ?_) n [] ((hmac k msg).take n) rfl hl
  have h1 := h t ht
  have h2 := hmac_validation_comparisons junk junk' k msg [] [] t n hk h0 hm hn (by omega)
  rw [List.append_nil, List.append_nil, h1] at h2
  have h3 := Res.ok_inj.mp h2
  rw [h3, List.take_of_length_le (by omega)]

/-- Non-trivial instance: there is such an answer. -/
example : ∃ answer : List U8 → Int × Nat, ∀ t, t.length = 16 →
    (do let cs ← loadKey (fun _ => 1) [1, 2] [1, 2].length
        tagValidationT (fun _ => 2) cs t [3] [3].length 16) = .ok (answer t) :=
  ⟨fun t => _, fun t ht => by
    have := hmac_validation_comparisons (fun _ => 1) (fun _ => 2) [1, 2] [3] [] [] t 16 (by simp) (by simp) (by simp) (by simp)
      (by omega)
    exact this⟩

/-- C109 is false: two wrong tags need different numbers of comparisons. -/
theorem hmac_validation_timing_refuted : ¬ ∀ (junk : Nat → U8) (k msg t t' : List U8) (r r' : Int × Nat),
    msg ≠ [] → t.length = 16 → t'.length = 16 →
    (do let cs ← loadKey junk k k.length
        tagValidationT junk cs t msg msg.length 16) = .ok r →
    (do let cs ← loadKey junk k k.length
        tagValidationT junk cs t' msg msg.length 16) = .ok r' →
    r.1 = r'.1 → r.2 = r'.2 := by
  intro h
  obtain ⟨x, rest, hr⟩ : ∃ x rest, (hmac [] [0]).take 16 = x :: rest := by
    have hl : ((hmac [] [0]).take 16).length = 16 := by rw [List.length_take, hmac_length]; omega
    cases hc : (hmac [] [0]).take 16 with
    | nil => rw [hc] at hl; simp at hl
    | cons x rest => exact ⟨x, rest, rfl⟩
  have hl : rest.length = 15 := by
    have : ((hmac [] [0]).take 16).length = 16 := by rw [List.length_take, hmac_length]; omega
    rw [hr] at this
    simpa using this
  obtain ⟨y, rest', hr'⟩ : ∃ y rest', rest = y :: rest' := by
    cases rest with
    | nil => simp at hl
    | cons y rest' => exact ⟨y, rest', rfl⟩
  subst hr'
  have hy : y + 1 ≠ y := by
    intro e
    have h1 := congrArg BitVec.toNat e
    have h2 := y.isLt
    have h3 : (1 : U8).toNat = 1 := rfl
    simp only [BitVec.toNat_add, h3] at h1
    omega
  have hx : x + 1 ≠ x := by
    intro e
    have h1 := congrArg BitVec.toNat e
    have h2 := x.isLt
    have h3 : (1 : U8).toNat = 1 := rfl
    simp only [BitVec.toNat_add, h3] at h1
    omega
  have c1 := hmac_validation_comparisons (fun _ => 0) (fun _ => 0) [] [0] [] [] ((x + 1) :: y :: rest') 16 (by simp) (by simp)
    (by simp) (by simp) (by simp at hl ⊢; omega)
  have c2 := hmac_validation_comparisons (fun _ => 0) (fun _ => 0) [] [0] [] [] (x :: (y + 1) :: rest') 16 (by simp) (by simp)
    (by simp) (by simp) (by simp at hl ⊢; omega)
  rw [hr, List.take_of_length_le (by simp at hl ⊢; omega)] at c1 c2
  simp only [agree, hx, hy, if_false, if_true, List.cons.injEq, false_and, and_false, Nat.zero_add] at c1 c2
  have := h (fun _ => 0) [] [0] ((x + 1) :: y :: rest') (x :: (y + 1) :: rest') _ _ (by simp) (by simp at hl ⊢; omega)
    (by simp at hl ⊢; omega) c1 c2 rfl
  simp at this

end CT.Props.HMAC

namespace CT.Props.AEGIS
open CT CT.AEGIS
open CT.AES (quadOf)

theorem compareWordsT_eq (ws : List (U32 × U32)) : ∀ (flag : Bool) (k : Nat),
    compareWordsT ws flag k = (flag || ws.any fun p => p.1 ≠ p.2, k + ws.length) := by
  induction ws with
  | nil => intro flag k; simp [compareWordsT]
  | cons p ws ih =>
    intro flag k
    rw [compareWordsT, ih]
    by_cases h : p.1 = p.2
    · simp [h]; omega
    · simp [h]; omega

/-- C110: decryption compares all words of the tags, whatever they are, and with the comparison loop
written out it is the function of the model. -/
theorem aegis_comparisons (rnd : Quad → Quad → Quad) (cs : State) (io : Io) (ad iv tag : List U8) (adlen msglen : Nat) :
    decryptPacketT rnd cs io ad iv tag adlen msglen =
      (do let r ← decryptPacket rnd cs io ad iv tag adlen msglen
          return (r, 4)) := by
  have hq (p q : Quad) : compareWordsT (p.toList.zip q.toList) false 0 = (decide (p ≠ q), 4) := by
    rw [compareWordsT_eq]
    rcases p with ⟨a, b, c, d⟩
    rcases q with ⟨a', b', c', d'⟩
    simp only [Quad.toList, List.zip_cons_cons, List.zip_nil_right, List.any_cons, List.any_nil, Bool.false_or, Bool.or_false,
      List.length_cons, List.length_nil, Nat.zero_add, Prod.mk.injEq, and_true, ne_eq, Quad.mk.injEq]
    by_cases h1 : a = a' <;> by_cases h2 : b = b' <;> by_cases h3 : c = c' <;> by_cases h4 : d = d' <;> simp [h1, h2, h3, h4]
  rw [decryptPacketT, decryptPacket]
  simp only []
  cases processAd rnd (initState rnd cs iv) ad adlen with
  | ub w => rfl
  | ok c =>
    simp only [Res.ok_bind]
    cases crypt rnd true c io msglen with
    | ub w => rfl
    | ok r =>
      obtain ⟨c1, o⟩ := r
      simp only [Res.ok_bind, hq]
      by_cases h : (finalize rnd c1 adlen msglen).2 = quadOf tag
      · simp only [h, ne_eq, not_true_eq_false, decide_false, Bool.false_eq_true, if_false]
        rfl
      · simp only [h, ne_eq, not_false_eq_true, decide_true, if_true]
        cases Mem.wrs o.out 0 (List.replicate msglen 0) with
        | ub w => rfl
        | ok x =>
          simp only [Res.ok_bind]
          cases Mem.wrs tag 0 (List.replicate 16 0) with
          | ub w => rfl
          | ok y => rfl

end CT.Props.AEGIS
