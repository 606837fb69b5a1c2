import Verif.Props.ChaCha
import Verif.Props.HC128
import Verif.Props.Rabbit
import Verif.Props.Sosemanuk
import Verif.Props.AESCtr
import Verif.Props.AESCfb
import Verif.Props.AEGIS
import Verif.Props.Reinit

/-!
# C148: what a stolen object tells about earlier packets

The definitions in this file are those of somebody who gets the cipher object after a session (from a core dump, a stolen device, or
memory that was released without being cleared), and who recorded the packets.
-/

namespace CT.Props.Stolen
open CT

/-! ### HC-128 -/

section HC
open CT.HC128

/-- The entry before an update, from the table after it. -/
def undo (g : U32 → U32 → U32 → U32) (y : U32 → U32) (T : Table) (j : Nat) (hj : j < 512) : Table :=
  T.set j ((T.get ⟨j, hj⟩ ^^^ y (T.get (back j 12))) - g (T.get (back j 3)) (T.get (back j 10)) (T.get (back j 511))) hj

/-- One step backwards. -/
def unstep (cs : State) (i : Nat) : State :=
  if i % 1024 < 512 then { cs with P := undo g1 (fun _ => 0#32) cs.P (i % 512) (Nat.mod_lt _ (by decide)) }
  else { cs with Q := undo g2 (fun _ => 0#32) cs.Q (i % 512) (Nat.mod_lt _ (by decide)) }

/-- Steps `i, ..., i + n - 1` backwards. -/
def unsteps : Nat → Nat → State → State
  | 0, _, cs => cs
  | n + 1, i, cs => unstep (unsteps n (i + 1) cs) i

/-- Back to the state before packets of these sizes. -/
def rewind : List Nat → State → State
  | [], cs => cs
  | n :: ns, cs => unsteps ((n + 3) / 4) 0 (rewind ns cs)

/-- The mixing of `P` and of `Q` backwards. -/
def unmixP : Nat → Nat → State → State
  | 0, _, cs => cs
  | n + 1, i, cs =>
    let cs := unmixP n (i + 1) cs
    if hi : i < 512 then { cs with P := undo g1 (h cs.Q) cs.P i hi } else cs

def unmixQ : Nat → Nat → State → State
  | 0, _, cs => cs
  | n + 1, i, cs =>
    let cs := unmixQ n (i + 1) cs
    if hi : i < 512 then { cs with Q := undo g2 (h cs.P) cs.Q i hi } else cs

/-- The recurrence of the words `W` backwards: from the words from `n` on to all. -/
def unexpand : Nat → List U32 → List U32
  | 0, w => w
  | n + 1, w =>
    unexpand n ((w.getD 15 0 - BitVec.ofNat 32 (n + 16) - f2 (w.getD 13 0) - w.getD 8 0 - f1 (w.getD 0 0)) :: w)

/-- Key and IV of a freshly initialised object. -/
def recover (cs : State) : List U8 × List U8 :=
  let cs := unmixP 512 0 (unmixQ 512 0 cs)
  let W := unexpand 256 (cs.P.toList ++ cs.Q.toList)
  (wordsToBytesLE (W.take 4), wordsToBytesLE ((W.drop 8).take 4))

theorem undo_set (g : U32 → U32 → U32 → U32) (y : U32 → U32) (T : Table) (j : Nat) (hj : j < 512) :
    undo g y (T.set j (feed g T ⟨j, hj⟩ ^^^ y (T.get (back j 12))) hj) j hj = T := by
  have b := fun k h0 hk => back_ne j k hj h0 hk
  apply get_ext
  intro i
  rw [undo, get_set]
  by_cases hi : i.val = j
  · have : i = ⟨j, hj⟩ := Fin.ext hi
    subst this
    rw [if_pos rfl]
    simp only [get_set, if_true, if_neg (b 12 (by omega) (by omega)), if_neg (b 3 (by omega) (by omega)),
      if_neg (b 10 (by omega) (by omega)), if_neg (b 511 (by omega) (by omega)), feed]
    rw [BitVec.xor_assoc, BitVec.xor_self, BitVec.xor_zero, BitVec.add_sub_cancel]
  · rw [if_neg hi, get_set, if_neg hi]

theorem unstep_step (cs : State) (i : Nat) : unstep (step cs i).1 i = cs := by
  obtain ⟨P, Q⟩ := cs
  by_cases hi : i % 1024 < 512
  · simp only [step, hi, if_true, unstep]
    have := undo_set g1 (fun _ => 0#32) P (i % 512) (Nat.mod_lt _ (by decide))
    simp only [BitVec.xor_zero] at this
    rw [this]
  · simp only [step, hi, if_false, unstep]
    have := undo_set g2 (fun _ => 0#32) Q (i % 512) (Nat.mod_lt _ (by decide))
    simp only [BitVec.xor_zero] at this
    rw [this]

theorem unsteps_gen (n : Nat) : ∀ (i : Nat) (cs : State), unsteps n i (gen n i cs).1 = cs := by
  induction n with
  | zero => intro i cs; rfl
  | succ n ih =>
    intro i cs
    show unstep (unsteps n (i + 1) (gen n (i + 1) (step cs i).1).1) i = cs
    rw [ih, unstep_step]

theorem rewind_runAll : ∀ (ps : List (List U8)) (cs s : State) (out : List (List U8)), (∀ p ∈ ps, p.length ≤ 2 ^ 33 - 8) →
    runAll processPacket cs ps = .ok (s, out) → out.map List.length = ps.map List.length ∧ rewind (out.map List.length) s = cs
  | [], cs, s, out, _, h => by
    simp only [runAll, Res.ok_inj, Prod.mk.injEq] at h
    obtain ⟨rfl, rfl⟩ := h
    exact ⟨rfl, rfl⟩
  | p :: ps, cs, s, out, hp, h => by
    have hpl := hp p (by simp)
    simp only [runAll, isStream.single p trivial hpl, Res.ok_bind] at h
    obtain ⟨⟨s1, o1⟩, e1, h⟩ := Res.bind_eq_ok h
    simp only [Res.pure_eq, Res.ok_inj, Prod.mk.injEq] at h
    obtain ⟨rfl, rfl⟩ := h
    obtain ⟨l1, l2⟩ := rewind_runAll ps _ _ _ (fun x hx => hp x (by simp [hx])) e1
    have hl : (xorBytes p (pktKs cs p.length)).length = p.length := by
      rw [xorBytes_length, pktKs_length, Nat.min_self]
    refine ⟨by rw [List.map_cons, List.map_cons, l1, hl], ?_⟩
    rw [List.map_cons, rewind, l2, hl, pktNext, unsteps_gen]

theorem unmixP_mixP (n : Nat) : ∀ (i : Nat) (cs : State), i + n ≤ 512 → unmixP n i (mixP n i cs) = cs := by
  induction n with
  | zero => intro i cs _; rfl
  | succ n ih =>
    intro i cs hi
    have hj : i < 512 := by omega
    obtain ⟨P, Q⟩ := cs
    rw [mixP, dif_pos hj, unmixP]
    dsimp only
    rw [ih _ _ (by omega), dif_pos hj]
    dsimp only
    rw [undo_set]

theorem unmixQ_mixQ (n : Nat) : ∀ (i : Nat) (cs : State), i + n ≤ 512 → unmixQ n i (mixQ n i cs) = cs := by
  induction n with
  | zero => intro i cs _; rfl
  | succ n ih =>
    intro i cs hi
    have hj : i < 512 := by omega
    obtain ⟨P, Q⟩ := cs
    rw [mixQ, dif_pos hj, unmixQ]
    dsimp only
    rw [ih _ _ (by omega), dif_pos hj]
    dsimp only
    rw [undo_set]

/-- The words of a function from `i` on. -/
def from_ (f : Nat → U32) : Nat → Nat → List U32
  | 0, _ => []
  | n + 1, i => f i :: from_ f n (i + 1)

theorem from_getD (f : Nat → U32) (n i k : Nat) (h : k < n) : (from_ f n i).getD k 0 = f (i + k) := by
  induction n generalizing i k with
  | zero => omega
  | succ n ih =>
    cases k with
    | zero => rfl
    | succ k =>
      rw [from_, List.getD_cons_succ, ih _ _ (by omega)]
      congr 1
      omega

theorem from_length (f : Nat → U32) (n i : Nat) : (from_ f n i).length = n := by
  induction n generalizing i with
  | zero => rfl
  | succ n ih => rw [from_, List.length_cons, ih]

theorem from_append (f : Nat → U32) (m n i : Nat) : from_ f (m + n) i = from_ f m i ++ from_ f n (i + m) := by
  induction m generalizing i with
  | zero => rw [Nat.zero_add]; rfl
  | succ m ih =>
    rw [Nat.succ_add, from_, ih, from_, List.cons_append, show i + 1 + m = i + (m + 1) by omega]

theorem toList_ofFn (f : Nat → U32) (c : Nat) : (Vector.ofFn (n := 512) fun i => f (i.val + c)).toList = from_ f 512 c := by
  apply List.ext_getElem
  · rw [from_length]; exact Vector.length_toList
  · intro i h1 h2
    have hi : i < 512 := by rw [from_length] at h2; exact h2
    have e := from_getD f 512 c i hi
    rw [List.getD_eq_getElem?_getD, List.getElem?_eq_getElem h2, Option.getD_some] at e
    rw [e, Vector.getElem_toList, Vector.getElem_ofFn, Nat.add_comm]

theorem unexpand_from (k v : List U8) (n m : Nat) (hm : 16 ≤ m) (h : n + m = 1280) :
    unexpand n (from_ (Spec.HC128.W k v) m n) = from_ (Spec.HC128.W k v) 1280 0 := by
  induction n generalizing m with
  | zero =>
    rw [unexpand]
    congr 1
    omega
  | succ n ih =>
    rw [unexpand]
    rw [from_getD _ _ _ _ (by omega), from_getD _ _ _ _ (by omega), from_getD _ _ _ _ (by omega), from_getD _ _ _ _ (by omega)]
    rw [← ih (m + 1) (by omega) (by omega)]
    congr 1
    rw [from_]
    congr 1
    have e : Spec.HC128.W k v (n + 16) = _ := Spec.HC128.W.eq_def k v (n + 16)
    rw [if_neg (by omega), if_neg (by omega), dif_pos (by omega)] at e
    rw [show n + 1 + 15 = n + 16 by omega, show n + 1 + 13 = n + 16 - 2 by omega, show n + 1 + 8 = n + 16 - 7 by omega,
      show n + 1 + 0 = n + 16 - 15 by omega, e, show n + 16 - 16 = n by omega, f1_eq, f2_eq]
    generalize Spec.HC128.W k v n = x
    generalize Spec.HC128.W k v (n + 16 - 7) = y
    generalize Spec.HC128.f2 (Spec.HC128.W k v (n + 16 - 2)) = z
    generalize Spec.HC128.f1 (Spec.HC128.W k v (n + 16 - 15)) = w
    rw [BitVec.add_sub_cancel, BitVec.add_assoc, BitVec.add_assoc, BitVec.add_comm z, BitVec.add_sub_cancel, BitVec.add_comm y,
      BitVec.add_sub_cancel, BitVec.add_comm w, BitVec.add_sub_cancel]

theorem four_words (b : List U8) (hb : b.length = 16) (f : Nat → U32) (i : Nat) (h : ∀ j < 4, f (i + j) = (bytesToWordsLE b).getD j 0) :
    wordsToBytesLE (from_ f 4 i) = b := by
  obtain ⟨x0, x1, x2, x3, e⟩ := words4 hb
  have h0 := h 0 (by omega)
  have h1 := h 1 (by omega)
  have h2 := h 2 (by omega)
  have h3 := h 3 (by omega)
  rw [e] at h0 h1 h2 h3
  simp only [List.getD_cons_zero, List.getD_cons_succ, Nat.add_zero] at h0 h1 h2 h3
  rw [from_, from_, from_, from_, from_, h0, h1, show i + 1 + 1 = i + 2 by omega, h2, show i + 2 + 1 = i + 3 by omega, h3, ← e,
    wordsToBytesLE_bytesToWordsLE 4 b hb]

theorem recover_init (key iv : List U8) (hk : key.length = 16) (hv : iv.length = 16) : recover (init key iv) = (key, iv) := by
  rw [recover, init]
  rw [unmixQ_mixQ _ _ _ (by omega), unmixP_mixP _ _ _ (by omega)]
  dsimp only
  have eP : (Vector.ofFn fun i : Fin 512 => (wArray key iv).getD (i.val + 256) 0) =
      Vector.ofFn fun i : Fin 512 => Spec.HC128.W key iv (i.val + 256) :=
    congrArg Vector.ofFn (funext fun i => wArray_eq hk hv (by omega))
  have eQ : (Vector.ofFn fun i : Fin 512 => (wArray key iv).getD (i.val + 768) 0) =
      Vector.ofFn fun i : Fin 512 => Spec.HC128.W key iv (i.val + 768) :=
    congrArg Vector.ofFn (funext fun i => wArray_eq hk hv (by omega))
  rw [eP, eQ, toList_ofFn, toList_ofFn, ← from_append _ 512 512 256, unexpand_from key iv 256 1024 (by omega) (by omega)]
  have e1 : (from_ (Spec.HC128.W key iv) 1280 0).take 4 = from_ (Spec.HC128.W key iv) 4 0 := by
    rw [show 1280 = 4 + 1276 by omega, from_append, List.take_left' (from_length _ _ _)]
  have e2 : ((from_ (Spec.HC128.W key iv) 1280 0).drop 8).take 4 = from_ (Spec.HC128.W key iv) 4 8 := by
    rw [show 1280 = 8 + (4 + 1268) by omega, from_append, List.drop_left' (from_length _ _ _), from_append,
      List.take_left' (from_length _ _ _)]
  rw [e1, e2, four_words key hk _ 0 (fun j hj => by rw [Nat.zero_add]; exact W_key key iv hj),
    four_words iv hv _ 8 (fun j hj => by rw [Nat.add_comm]; exact W_iv key iv hj)]

/-- C148, HC-128: from the object after any session, and the sizes of the packets, the key and the IV. -/
theorem hc128_stolen_key (key iv : List U8) (hk : key.length = 16) (hv : iv.length = 16) (ps : List (List U8))
    (hp : ∀ p ∈ ps, p.length ≤ 2 ^ 33 - 8) :
    ∃ s out, runAll processPacket (init key iv) ps = .ok (s, out) ∧ recover (rewind (out.map List.length) s) = (key, iv) := by
  obtain ⟨s, out, h, -⟩ := isStream.runAll_round_trip ps (init key iv) trivial hp
  exact ⟨s, out, h, by rw [(rewind_runAll ps _ _ _ hp h).2, recover_init key iv hk hv]⟩

example := hc128_stolen_key (List.replicate 16 3) (List.replicate 16 4) (by decide) (by decide) [[1, 2, 3], [], List.replicate 21 4] (by decide)

/-- **C148**, HC-128: the messages of the session. -/
theorem hc128_stolen (key iv : List U8) (ps : List (List U8)) (hp : ∀ p ∈ ps, p.length ≤ 2 ^ 33 - 8) :
    ∃ s out, runAll processPacket (init key iv) ps = .ok (s, out) ∧
      runAll processPacket (rewind (out.map List.length) s) out = .ok (s, ps) := by
  obtain ⟨s, out, h, -, h2⟩ := isStream.runAll_round_trip ps (init key iv) trivial hp
  exact ⟨s, out, h, by rw [(rewind_runAll ps _ _ _ hp h).2, h2]⟩

/-- The hypotheses hold for a session of three packets. -/
example : (List.replicate 16 (3 : U8)).length = 16 ∧ ∀ p ∈ [[1, 2, 3], [], List.replicate 21 (4 : U8)], p.length ≤ 2 ^ 33 - 8 := by
  decide

end HC

/-! ### Rabbit -/

section Rabbit
open CT.Rabbit CT.Props.Rabbit

/-- The object put back to where it was after the key was loaded, up to the carry. -/
def restart (cs : State) (b : U8) : State := { cs with X := cs.MX, C := cs.MC, carry := b }

theorem counterStep_carry (cs : State) (j : Fin 8) : (counterStep cs j).carry = 0 ∨ (counterStep cs j).carry = 1 := by
  rw [counterStep]
  dsimp only
  split
  · exact .inr rfl
  · exact .inl rfl

theorem foldl_carry (js : List (Fin 8)) : ∀ (cs : State) (j : Fin 8),
    (js.foldl counterStep (counterStep cs j)).carry = 0 ∨ (js.foldl counterStep (counterStep cs j)).carry = 1 := by
  induction js with
  | nil => intro cs j; exact counterStep_carry cs j
  | cons i js ih => intro cs j; rw [List.foldl_cons]; exact ih _ i

theorem nextState_carry (cs : State) : (nextState cs).carry = cs.carry := rfl

theorem update_carry (cs : State) : (update cs).carry = 0 ∨ (update cs).carry = 1 := by
  rw [update, nextState_carry, counter, List.foldl_cons]
  exact foldl_carry _ _ _

theorem update4_carry (cs : State) : (update4 cs).carry = 0 ∨ (update4 cs).carry = 1 := by
  rw [update4]
  exact update_carry _

theorem restart_finished (s t : State) (h1 : s.MX = (Reinit.finished t).MX) (h2 : s.MC = (Reinit.finished t).MC) :
    restart s t.carry = Reinit.finished t := by
  rw [restart, h1, h2]
  rfl

theorem runCmds_master : ∀ (cmds : List Cmd) (cs s : State) (out : List Cmd), runCmds processPacket loadIv cs cmds = .ok (s, out) →
    s.MX = cs.MX ∧ s.MC = cs.MC
  | [], cs, s, out, h => by
    simp only [runCmds, Res.ok_inj, Prod.mk.injEq] at h
    rw [h.1]
    exact ⟨rfl, rfl⟩
  | .load iv :: cmds, cs, s, out, h => by
    rw [runCmds] at h
    obtain ⟨⟨s1, o1⟩, e1, h⟩ := Res.bind_eq_ok h
    simp only [Res.pure_eq, Res.ok_inj, Prod.mk.injEq] at h
    have := runCmds_master cmds _ _ _ e1
    rw [← h.1, this.1, this.2, loadIv, (update4_master _).1, (update4_master _).2]
    exact ⟨rfl, rfl⟩
  | .packet p :: cmds, cs, s, out, h => by
    rw [runCmds, isStream.single p trivial trivial, Res.ok_bind] at h
    obtain ⟨⟨s1, o1⟩, e1, h⟩ := Res.bind_eq_ok h
    simp only [Res.pure_eq, Res.ok_inj, Prod.mk.injEq] at h
    have := runCmds_master cmds _ _ _ e1
    rw [← h.1, this.1, this.2, pktNext, (blkState_master _ _).1, (blkState_master _ _).2]
    exact ⟨rfl, rfl⟩

/-- **C148**, Rabbit: one of two states, both computed from the object, decrypts everything since the key was loaded. -/
theorem rabbit_stolen (key : List U8) (cmds : List Cmd) :
    ∃ s out, runCmds processPacket loadIv (loadKey key) cmds = .ok (s, out) ∧
      (runCmds processPacket loadIv (restart s 0) out = .ok (s, cmds) ∨
        runCmds processPacket loadIv (restart s 1) out = .ok (s, cmds)) := by
  obtain ⟨s, out, h1, -, h2⟩ := rabbit_lockstep_round_trip key cmds
  refine ⟨s, out, h1, ?_⟩
  obtain ⟨m1, m2⟩ := runCmds_master _ _ _ _ h1
  rw [Reinit.loadKey_eq] at m1 m2 h2
  have e := restart_finished s _ m1 m2
  rcases update4_carry (loadKeyExpand key) with hc | hc
  · rw [hc] at e
    exact .inl (by rw [e, h2])
  · rw [hc] at e
    exact .inr (by rw [e, h2])

/-- Both carries occur. -/
example : (loadKey (List.replicate 16 0)).carry = 1 ∧ (loadKey (List.replicate 16 138)).carry = 0 := by decide +kernel

end Rabbit

/-! ### Sosemanuk -/

section Sosemanuk
open CT.Sosemanuk CT.Props.Sosemanuk

theorem session_rk : ∀ (cmds : List Cmd) (cs s : State) (out : List Cmd), session cs cmds = .ok (s, out) → s.rk = cs.rk
  | [], cs, s, out, h => by
    simp only [session, Res.ok_inj, Prod.mk.injEq] at h
    rw [h.1]
  | .load iv :: cmds, cs, s, out, h => by
    rw [session] at h
    obtain ⟨c1, h1, h⟩ := Res.bind_eq_ok h
    obtain ⟨⟨s1, o1⟩, e1, h⟩ := Res.bind_eq_ok h
    simp only [Res.pure_eq, Res.ok_inj, Prod.mk.injEq] at h
    rw [loadIv] at h1
    obtain ⟨l, _, h2⟩ := Res.bind_eq_ok h1
    rw [← h.1, session_rk cmds _ _ _ e1]
    split at h2
    · rw [← (Res.ok_inj).mp h2]
    · cases h2
  | .packet p :: cmds, cs, s, out, h => by
    rw [session, isStream.single p trivial trivial, Res.ok_bind] at h
    obtain ⟨⟨s1, o1⟩, e1, h⟩ := Res.bind_eq_ok h
    simp only [Res.pure_eq, Res.ok_inj, Prod.mk.injEq] at h
    rw [← h.1, session_rk cmds _ _ _ e1, blkState_rk]

/-- **C148**, Sosemanuk: the object itself, after loading the IV again, decrypts everything since that IV was loaded the first time. -/
theorem sosemanuk_stolen (cs : State) (iv : List U8) (cmds : List Cmd) (hv : iv.length = 16)
    (h : ∀ v, Cmd.load v ∈ cmds → v.length = 16) :
    ∃ s out, session cs (.load iv :: cmds) = .ok (s, .load iv :: out) ∧ session s (.load iv :: out) = .ok (s, .load iv :: cmds) := by
  obtain ⟨c1, e1, _⟩ := loadIv_ok cs iv hv
  obtain ⟨s, out, h1, -, h2⟩ := sosemanuk_lockstep_round_trip cmds c1 h
  have r : session cs (.load iv :: cmds) = .ok (s, .load iv :: out) := by simp [session, e1, h1]
  have e2 : loadIv s iv = .ok c1 := by
    rw [← e1, loadIv, loadIv, session_rk _ _ _ _ r]
  exact ⟨s, out, r, by simp [session, e2, h2]⟩

example : iv0.length = 16 ∧ ∀ v, Cmd.load v ∈ [Cmd.packet [1, 2, 3], .load (iv0.set 0 1), .packet [4]] → v.length = 16 := by
  simp [iv0]

end Sosemanuk

/-! ### AES -/

section AES
open CT.AES CT.Props.AES

/-- The round key before round key `i`. -/
def prevQuad (i : Nat) (q : Quad) : Quad :=
  let w3 := q.w3 ^^^ q.w2
  ⟨q.w0 ^^^ (subByte (rotByte w3) ^^^ (rconTab.getD i 0).setWidth 32), q.w1 ^^^ q.w0, q.w2 ^^^ q.w1, w3⟩

/-- From round key `i` back to the key. -/
def unroll : Nat → Quad → Quad
  | 0, q => q
  | i + 1, q => unroll i (prevQuad (i + 1) q)

theorem prevQuad_nextQuad (i : Nat) (q : Quad) : prevQuad i (nextQuad i q) = q := by
  obtain ⟨a, b, c, d⟩ := q
  simp only [prevQuad, nextQuad, Quad.mk.injEq]
  have x : ∀ u v : U32, u ^^^ v ^^^ v = u := fun u v => by rw [BitVec.xor_assoc, BitVec.xor_self, BitVec.xor_zero]
  refine ⟨?_, x _ _, x _ _, x _ _⟩
  rw [x d, x a]

theorem unroll_rkq (key : List U8) : ∀ i, unroll i (rkq key i) = rkq key 0
  | 0 => rfl
  | i + 1 => by rw [unroll, show rkq key (i + 1) = nextQuad (i + 1) (rkq key i) from rfl, prevQuad_nextQuad, unroll_rkq key i]

/-- The key, from any one of the eleven round keys. -/
theorem roundKey_reveals (key : List U8) (hk : key.length = 16) (i : Nat) (hi : i ≤ 10) :
    (unroll i (rkAt (keyExpansion key) (4 * i))).bytes = key := by
  rw [rkAt_keyExpansion key i hi, unroll_rkq, rkq_zero, quadOf_bytes hk]

theorem ctr_blkState_rk : ∀ (n : Nat) (cs : State), (blkState pblk n cs).rk = cs.rk
  | 0, _ => rfl
  | n + 1, cs => by
    rw [blkState, ctr_blkState_rk n]
    rfl

theorem ctr_rk : ∀ (cmds : List Cmd) (cs s : State) (out : List Cmd), (∀ c ∈ cmds, c.sizesOk fun n => n % 4 ≤ 1) →
    runCmds (fun s io n => ctrPacket s io n) ctrLoadIv cs cmds = .ok (s, out) → s.rk = cs.rk
  | [], cs, s, out, _, h => by
    simp only [runCmds, Res.ok_inj, Prod.mk.injEq] at h
    rw [h.1]
  | .load iv :: cmds, cs, s, out, hc, h => by
    rw [runCmds] at h
    obtain ⟨⟨s1, o1⟩, e1, h⟩ := Res.bind_eq_ok h
    simp only [Res.pure_eq, Res.ok_inj, Prod.mk.injEq] at h
    rw [← h.1, ctr_rk cmds _ _ _ (fun c hx => hc c (by simp [hx])) e1]
    rfl
  | .packet p :: cmds, cs, s, out, hc, h => by
    have hp : p.length % 4 ≤ 1 := hc (.packet p) (by simp)
    have e := (isStream pblk).single (s := cs) p trivial hp
    rw [runCmds, show ctrPacket cs ⟨p, List.replicate p.length 0, false⟩ p.length = _ from e, Res.ok_bind] at h
    obtain ⟨⟨s1, o1⟩, e1, h⟩ := Res.bind_eq_ok h
    simp only [Res.pure_eq, Res.ok_inj, Prod.mk.injEq] at h
    rw [← h.1, ctr_rk cmds _ _ _ (fun c hx => hc c (by simp [hx])) e1, ctrNext, ctr_blkState_rk]

/-- **C148**, AES-CTR: every one of the eleven round keys in the object gives the key. -/
theorem aes_ctr_stolen (cs : State) (key : List U8) (hk : key.length = 16) (cmds : List Cmd)
    (h : ∀ c ∈ cmds, c.sizesOk fun n => n % 4 ≤ 1) (i : Nat) (hi : i ≤ 10) :
    ∃ s out, runCmds (fun s io n => ctrPacket s io n) ctrLoadIv (loadKey cs key) cmds = .ok (s, out) ∧
      (unroll i (rkAt s.rk (4 * i))).bytes = key := by
  obtain ⟨s, out, h1, -⟩ := aes_ctr_lockstep_partial (loadKey cs key) cmds h
  refine ⟨s, out, h1, ?_⟩
  rw [ctr_rk _ _ _ _ h h1]
  exact roundKey_reveals key hk i hi

example (cs : AES.State) := aes_ctr_stolen cs (List.replicate 16 3) (by decide) [.load (List.replicate 12 1), .packet [1, 2, 3, 4, 5], .packet []] (by simp [Cmd.sizesOk]) 10 (by decide)

theorem cfbBlocks_rk (v : CfbVariant) (fb : Bool) : ∀ (m : Nat) (cs : State) (p : List U8), (cfbBlocks v fb m cs p).2.rk = cs.rk
  | 0, _, _ => rfl
  | m + 1, cs, p => by
    rw [cfbBlocks]
    exact cfbBlocks_rk v fb m _ _

theorem cfbRun_rk (v : CfbVariant) (fb : Bool) (cs : State) (p : List U8) : (cfbRun v fb cs p).2.rk = cs.rk := by
  rw [cfbRun]
  dsimp only
  rw [cfbTail]
  split
  · exact cfbBlocks_rk v fb _ cs p
  · rw [← cfbBlocks_rk v fb (p.length / 16) cs p, cfbEncrypt]
    dsimp only
    split <;> rfl

theorem cfb_rk (v : CfbVariant) : ∀ (ps : List (List U8)) (cs s : State) (out : List (List U8)), (∀ p ∈ ps, p.length % 4 ≤ 1) →
    runAll (enc v) cs ps = .ok (s, out) → s.rk = cs.rk
  | [], cs, s, out, _, h => by
    simp only [runAll, Res.ok_inj, Prod.mk.injEq] at h
    rw [h.1]
  | p :: ps, cs, s, out, hp, h => by
    rw [enc_cons v cs p ps (hp p (by simp))] at h
    obtain ⟨⟨s1, o1⟩, e1, h⟩ := Res.bind_eq_ok h
    simp only [Res.pure_eq, Res.ok_inj, Prod.mk.injEq] at h
    rw [← h.1, cfb_rk v ps _ _ _ (fun q hq => hp q (by simp [hq])) e1, cfbRun_rk]

/-- **C148**, AES-CFB: the same, in every build. -/
theorem aes_cfb_stolen (v : CfbVariant) (key iv : List U8) (hk : key.length = 16) (ps : List (List U8))
    (h : ∀ p ∈ ps, p.length % 4 ≤ 1) (i : Nat) (hi : i ≤ 10) :
    ∃ s out, runAll (enc v) (cfbInit key iv) ps = .ok (s, out) ∧ (unroll i (rkAt s.rk (4 * i))).bytes = key := by
  obtain ⟨s, out, h1, -⟩ := aes_cfb_lockstep_partial v (cfbInit key iv) ps h
  refine ⟨s, out, h1, ?_⟩
  rw [cfb_rk v _ _ _ _ h h1]
  exact roundKey_reveals key hk i hi

/-- The last round key of the key of FIPS 197, and the way back. -/
example : (rkAt (keyExpansion fipsKey) 40).w0 = 0xa8f914d0 ∧ (unroll 10 (rkAt (keyExpansion fipsKey) 40)).bytes = fipsKey := by
  decide +kernel

end AES

/-! ### ChaCha and AEGIS -/

section ChaCha
open CT.ChaCha CT.Props.ChaCha

/-- **C148**, ChaCha: words 4 to 11 are the key and words 13 to 15 the nonce, whatever was processed. -/
theorem chacha_stolen (rounds : Nat) (key nonce : List U8) (hk : key.length = 32) (hn : nonce.length = 12) (cs : State)
    (h : History rounds key nonce cs) :
    wordsToBytesLE ((cs.state.toList.drop 4).take 8) = key ∧ wordsToBytesLE (cs.state.toList.drop 13) = nonce := by
  obtain ⟨c, e⟩ := h.keyed hk hn
  have lk := bytesToWordsLE_length 8 key hk
  have ln := bytesToWordsLE_length 3 nonce hn
  have hl : cs.state.toList.length = 16 := Vector.length_toList
  have g : ∀ i (h : i < 16), cs.state.toList[i]? = some ((Spec.ChaCha.initState key c nonce)[i]) := by
    intro i h
    rw [← e, List.getElem?_eq_getElem (by omega), Vector.getElem_toList]
  have e1 : (cs.state.toList.drop 4).take 8 = bytesToWordsLE key := by
    apply List.ext_getElem?
    intro i
    rw [List.getElem?_take]
    split
    · rename_i hi
      rw [List.getElem?_drop, g _ (by omega), Spec.ChaCha.initState, Vector.getElem_ofFn]
      dsimp only
      rw [if_neg (by omega), if_pos (by omega), show 4 + i - 4 = i by omega, List.getD_eq_getElem?_getD,
        List.getElem?_eq_getElem (by omega), Option.getD_some]
    · rw [List.getElem?_eq_none (by omega)]
  have e2 : cs.state.toList.drop 13 = bytesToWordsLE nonce := by
    apply List.ext_getElem?
    intro i
    rw [List.getElem?_drop]
    by_cases hi : i < 3
    · rw [g _ (by omega), Spec.ChaCha.initState, Vector.getElem_ofFn]
      dsimp only
      rw [if_neg (by omega), if_neg (by omega), if_neg (by omega), show 13 + i - 13 = i by omega, List.getD_eq_getElem?_getD,
        List.getElem?_eq_getElem (by omega), Option.getD_some]
    · rw [List.getElem?_eq_none (by omega), List.getElem?_eq_none (by omega)]
  rw [e1, e2]
  exact ⟨wordsToBytesLE_bytesToWordsLE 8 key hk, wordsToBytesLE_bytesToWordsLE 3 nonce hn⟩

/-- After a packet of three bytes. -/
example : ∃ cs, History 20 (List.replicate 32 7) (List.replicate 12 9) cs ∧ wordsToBytesLE (cs.state.toList.drop 13) = List.replicate 12 9 := by
  obtain ⟨cs', h⟩ := chacha_packet_is_rfc7539 20 (List.replicate 32 7) (List.replicate 12 9) (by decide) (by decide) _ .init
    ⟨[1, 2, 3], [0, 0, 0], false⟩ 3 (by decide) (by decide)
  have hr : History 20 (List.replicate 32 7) (List.replicate 12 9) cs' := .packet .init h
  exact ⟨_, hr, (chacha_stolen 20 _ _ (by decide) (by decide) _ hr).2⟩

end ChaCha

section AEGIS
open CT.AEGIS CT.Props.AEGIS

/-- **C148**, AEGIS-128: the key is in the object, whatever was processed. -/
theorem aegis_stolen {rnd : Quad → Quad → Quad} (key : List U8) (hk : key.length = 16) (cs : State) (h : Reach rnd key cs) :
    cs.key.bytes = key := by
  have : cs.key = AES.quadOf key := by
    induction h with
    | load => rfl
    | enc _ he ih => rw [aegis_encrypt_keeps_key rnd he, ih]
    | dec _ he ih => rw [aegis_decrypt_keeps_key rnd he, ih]
  rw [this, AES.quadOf_bytes hk]

/-- After a packet. -/
example : ∃ cs, Reach rndPortable (zeros 16) cs ∧ cs.key.bytes = zeros 16 := by
  obtain ⟨cs', h⟩ := aegis_conforms_partial (Or.inl rfl) someState (zeros 16) (zeros 16) [] ⟨zeros 35, zeros 40, false⟩ 35
    rfl rfl (by decide) (by decide) (by decide) (by decide) rfl
  have hr : Reach rndPortable (zeros 16) cs' := .enc (.load someState) h
  exact ⟨_, hr, aegis_stolen _ rfl _ hr⟩

end AEGIS

/-! ### The property -/

/-- **C148** is false: for HC-128 there is a program that gets the object and the packets, and always finds the messages. -/
theorem stolen_refuted :
    ¬ ∀ A : HC128.State → List (List U8) → List (List U8), ∃ (key iv : List U8) (ps out : List (List U8)) (s : HC128.State),
      key.length = 16 ∧ iv.length = 16 ∧ (∀ p ∈ ps, p.length ≤ 2 ^ 33 - 8) ∧
      runAll HC128.processPacket (HC128.init key iv) ps = .ok (s, out) ∧ A s out ≠ ps := by
  intro h
  obtain ⟨key, iv, ps, out, s, hk, hv, hp, e, hne⟩ := h fun s out =>
    match runAll HC128.processPacket (rewind (out.map List.length) s) out with
    | .ok r => r.2
    | .ub _ => []
  obtain ⟨s', out', e1, e2⟩ := hc128_stolen key iv ps hp
  rw [e, Res.ok_inj, Prod.mk.injEq] at e1
  obtain ⟨rfl, rfl⟩ := e1
  exact hne (by simp only [e2])

/-- **C148**, the part that holds: once the object is initialised again with another key, nothing of the session before is left in it: it is
the same object after any two sessions.  Missing from the full statement: an object that is not initialised again, for which it is false. -/
theorem stolen_partial (key32 key16 iv12 iv16 : List U8) (h32 : key32.length = 32) (h16 : key16.length = 16) (h12 : iv12.length = 12)
    (hv : iv16.length = 16) :
    (∀ s t, ChaCha.initFrom s key32 iv12 = ChaCha.initFrom t key32 iv12) ∧
    (∀ s t (junk junk' : List U32), junk.length = 1280 → junk'.length = 1280 →
      HC128.initFrom s junk key16 iv16 = HC128.initFrom t junk' key16 iv16) ∧
    (∀ s t, Rabbit.loadKeyFrom s key16 = Rabbit.loadKeyFrom t key16) ∧
    (∀ s t : AES.State, s.rk.length = 44 → t.rk.length = 44 →
      AES.ctrLoadIv (AES.loadKeyFrom s key16) iv12 = AES.ctrLoadIv (AES.loadKeyFrom t key16) iv12) ∧
    (∀ s t : AES.State, s.rk.length = 44 → t.rk.length = 44 → AES.cfbInitFrom s key16 iv16 = AES.cfbInitFrom t key16 iv16) := by
  refine ⟨fun s t => ?_, fun s t j j' hj hj' => ?_, fun s t => ?_, fun s t hs ht => ?_, fun s t hs ht => ?_⟩
  · rw [Reinit.reinit_chacha s _ _ h32 h12, Reinit.reinit_chacha t _ _ h32 h12]
  · rw [Reinit.reinit_hc128 s j hj _ _ h16 hv, Reinit.reinit_hc128 t j' hj' _ _ h16 hv]
  · rw [Reinit.reinit_rabbit s, Reinit.reinit_rabbit t]
  · rw [(Reinit.reinit_aesCtr s hs _ _).1, (Reinit.reinit_aesCtr t ht _ _).1]
  · rw [Reinit.reinit_aesCfb s hs, Reinit.reinit_aesCfb t ht]

/-- Two sessions under two keys, and what is left after initialising again. -/
example : HC128.init (List.replicate 16 1) (List.replicate 16 2) ≠ HC128.init (List.replicate 16 3) (List.replicate 16 2) ∧
    HC128.initFrom (HC128.init (List.replicate 16 1) (List.replicate 16 2)) (List.replicate 1280 5) (List.replicate 16 7) (List.replicate 16 9) =
      HC128.initFrom (HC128.init (List.replicate 16 3) (List.replicate 16 2)) (List.replicate 1280 6) (List.replicate 16 7) (List.replicate 16 9) := by
  refine ⟨fun h => ?_, (stolen_partial (List.replicate 32 7) _ (List.replicate 12 9) _ (by decide) (by decide) (by decide) (by decide)).2.1 _ _
    (List.replicate 1280 5) (List.replicate 1280 6) List.length_replicate List.length_replicate⟩
  have := (HC128.init_inj (by decide) (by decide) (by decide) (by decide) h).1
  revert this
  decide

end CT.Props.Stolen
