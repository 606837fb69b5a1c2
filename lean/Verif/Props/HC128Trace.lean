import Verif.Model.HC128Trace
import Verif.Proof.HC128Fast

/-!
# C143: the table entries that HC-128 reads
-/

namespace CT.Props.HC128Trace
open CT CT.HC128

/-! ### The record changes nothing -/

theorem mixPT_fst (n : Nat) : ∀ (i : Nat) (s : State × Reads), (mixPT n i s).1 = mixP n i s.1 := by
  induction n with
  | zero => intro i s; rfl
  | succ n ih =>
    rintro i ⟨cs, log⟩
    rw [mixPT, mixP]
    split
    · rw [ih]
    · rfl

theorem mixQT_fst (n : Nat) : ∀ (i : Nat) (s : State × Reads), (mixQT n i s).1 = mixQ n i s.1 := by
  induction n with
  | zero => intro i s; rfl
  | succ n ih =>
    rintro i ⟨cs, log⟩
    rw [mixQT, mixQ]
    split
    · rw [ih]
    · rfl

/-- The initialisation with a record is the initialisation. -/
theorem hc128_init_erase (key iv : List U8) : (initT key iv).1 = init key iv := by
  rw [initT, init]
  simp only [mixQT_fst, mixPT_fst]

/-- The word whose bytes are the indices in iteration `i`: entry `i - 12` of the table that is being updated, after the update. -/
def tap (cs : State) (i : Nat) : U32 :=
  if i % 1024 < 512 then (step cs i).1.P.get (back (i % 512) 12) else (step cs i).1.Q.get (back (i % 512) 12)

/-- The reads of iteration `i`: in the table being updated at places given by `i`, in the other one at places given by the
two bytes of `x`. -/
def stepReads (i : Nat) (x : U32) : Reads :=
  let j : Fin 512 := ⟨i % 512, Nat.mod_lt _ (by decide)⟩
  let own : Tab := if i % 1024 < 512 then .P else .Q
  let other : Tab := if i % 1024 < 512 then .Q else .P
  [(own, j), (own, back j 3), (own, back j 10), (own, back j 511), (own, back j 12), (other, lowIdx x), (other, highIdx x), (own, j)]

theorem stepT_eq (cs : State) (log : Reads) (i : Nat) : stepT (cs, log) i = (((step cs i).1, log ++ stepReads i (tap cs i)), (step cs i).2) := by
  by_cases h : i % 1024 < 512
  · simp only [stepT, step, tap, stepReads, h, if_true, feedReads, hReads]; rfl
  · simp only [stepT, step, tap, stepReads, h, if_false, feedReads, hReads]; rfl

/-- The words whose bytes are indices, for `n` iterations from `i` on. -/
def taps : Nat → Nat → State → List U32
  | 0, _, _ => []
  | n + 1, i, cs => tap cs i :: taps n (i + 1) (step cs i).1

/-- The reads of `n` iterations. -/
def reads : Nat → List U32 → Reads
  | _, [] => []
  | i, x :: xs => stepReads i x ++ reads (i + 1) xs

theorem genT_eq (n : Nat) : ∀ (i : Nat) (cs : State) (log : Reads),
    genT n i (cs, log) = (((gen n i cs).1, log ++ reads i (taps n i cs)), (gen n i cs).2) := by
  induction n with
  | zero => intro i cs log; simp [genT, gen, taps, reads]
  | succ n ih =>
    intro i cs log
    simp only [genT, gen, stepT_eq, ih, taps, reads, List.append_assoc]

/-- The packet function with a record is the packet function, and the reads of a packet of `n` bytes are those of the
`⌈n / 4⌉` iterations. -/
theorem hc128_packet_erase (cs : State) (log : Reads) (io : Io) (n : Nat) : processPacketT (cs, log) io n =
    (processPacket cs io n).bind fun r => .ok ((r.1, log ++ reads 0 (taps ((n + 3) / 4) 0 cs)), r.2) := by
  rw [processPacketT, processPacket]
  by_cases h0 : n < 1
  · have : n = 0 := by omega
    subst this
    simp [Res.bind, taps, reads]
  · rw [if_neg h0, if_neg h0]
    split
    · rfl
    · rw [show (n + 3) / 4 = (n - 1) / 4 + 1 by omega, genT_eq]
      dsimp only
      cases Io.wordLoop (gen ((n - 1) / 4 + 1) 0 cs).2 (n + 1) n 0 0 io with
      | ub u => rfl
      | ok r =>
        simp only [Res.ok_bind]
        cases Io.byteLoop (gen ((n - 1) / 4 + 1) 0 cs).2 r.1 (4 * r.2.1) r.2.2.1 r.2.2.2 <;> rfl

/-! ### What the reads show -/

theorem stepReads_iff (i : Nat) (x y : U32) : stepReads i x = stepReads i y ↔ byteN x 0 = byteN y 0 ∧ byteN x 2 = byteN y 2 := by
  have hl (x : U32) : (lowIdx x).val = (byteN x 0).toNat := by
    rw [lowIdx, byteN]
    simp
  have hh (x : U32) : (highIdx x).val = 256 + (byteN x 2).toNat := by
    rw [highIdx, byteN]
    simp only [BitVec.extractLsb', Nat.reduceMul, BitVec.toNat_setWidth, BitVec.toNat_ushiftRight, BitVec.toNat_ofNat]
  constructor
  · intro h
    simp only [stepReads, List.cons.injEq, Prod.mk.injEq, true_and, and_true, Fin.ext_iff, hl, hh] at h
    exact ⟨BitVec.eq_of_toNat_eq h.1, BitVec.eq_of_toNat_eq (by omega)⟩
  · rintro ⟨h1, h2⟩
    have e1 : lowIdx x = lowIdx y := Fin.ext (by rw [hl, hl, h1])
    have e2 : highIdx x = highIdx y := Fin.ext (by rw [hh, hh, h2])
    rw [stepReads, e1, e2, stepReads]

theorem reads_iff (xs : List U32) : ∀ (i : Nat) (ys : List U32), xs.length = ys.length →
    (reads i xs = reads i ys ↔ xs.map (fun x => (byteN x 0, byteN x 2)) = ys.map (fun x => (byteN x 0, byteN x 2))) := by
  induction xs with
  | nil =>
    intro i ys h
    cases ys with
    | nil => simp
    | cons y ys => simp at h
  | cons x xs ih =>
    intro i ys h
    cases ys with
    | nil => simp at h
    | cons y ys =>
      have hl : (stepReads i x).length = (stepReads i y).length := rfl
      rw [reads, reads, List.map_cons, List.map_cons, List.cons.injEq, Prod.mk.injEq, ← stepReads_iff i, ← ih (i + 1) ys (by simpa using h)]
      constructor
      · intro e; exact List.append_inj e hl
      · rintro ⟨e1, e2⟩; rw [e1, e2]

theorem taps_length (n : Nat) : ∀ (i : Nat) (cs : State), (taps n i cs).length = n := by
  induction n with
  | zero => intro i cs; rfl
  | succ n ih => intro i cs; rw [taps, List.length_cons, ih]

theorem reads_length (xs : List U32) : ∀ i, (reads i xs).length = 8 * xs.length := by
  induction xs with
  | nil => intro i; rfl
  | cons x xs ih => intro i; rw [reads, List.length_append, ih, List.length_cons]; simp [stepReads]; omega

/-- C143, what holds: the number of reads of a packet depends on its size only, and the places depend on the state only
through two bytes of one word per iteration: two sessions make the same reads exactly if these bytes agree.  Missing from
the full statement: that they do not depend on the key. -/
theorem hc128_reads_partial (cs cs' : State) (io io' : Io) (n : Nat) (hf : io.Fits n) (hf' : io'.Fits n) (hn : n < 2 ^ 31) :
    ∃ s s' out out' r r', processPacketT (cs, []) io n = .ok ((s, r), out) ∧ processPacketT (cs', []) io' n = .ok ((s', r'), out') ∧
      r.length = 8 * ((n + 3) / 4) ∧ r'.length = r.length ∧
      (r = r' ↔ (taps ((n + 3) / 4) 0 cs).map (fun x => (byteN x 0, byteN x 2)) =
        (taps ((n + 3) / 4) 0 cs').map (fun x => (byteN x 0, byteN x 2))) := by
  obtain ⟨⟨s, out⟩, h⟩ : ∃ p, processPacket cs io n = .ok p := ⟨_, processPacket_eq cs (by omega) hf⟩
  obtain ⟨⟨s', out'⟩, h'⟩ : ∃ p, processPacket cs' io' n = .ok p := ⟨_, processPacket_eq cs' (by omega) hf'⟩
  refine ⟨s, s', out, out', reads 0 (taps ((n + 3) / 4) 0 cs), reads 0 (taps ((n + 3) / 4) 0 cs'), ?_, ?_, ?_, ?_, ?_⟩
  · rw [hc128_packet_erase, h]; rfl
  · rw [hc128_packet_erase, h']; rfl
  · rw [reads_length, taps_length]
  · rw [reads_length, reads_length, taps_length, taps_length]
  · exact reads_iff _ 0 _ (by rw [taps_length, taps_length])

example (cs cs' : State) := hc128_reads_partial cs cs' ⟨List.replicate 10 1, List.replicate 10 0, false⟩ ⟨List.replicate 10 2, List.replicate 10 0, true⟩ 10
  (by decide) (by decide) (by decide)

/-! ### The reads of the initialisation -/

/-- The reads of iteration `i` of stage 3: five in the table being mixed at places given by `i`, two in the other one at places
given by bytes 0 and 2 of `x`. -/
def mixReads (own other : Tab) (i : Nat) (x : U32) : Reads :=
  let j : Fin 512 := ⟨i % 512, Nat.mod_lt _ (by decide)⟩
  [(own, j), (own, back j 3), (own, back j 10), (own, back j 511), (own, back j 12), (other, lowIdx x), (other, highIdx x)]

/-- Entry `j` of a table. -/
def at' (T : Table) (j : Nat) : U32 := T.toList.getD j 0

theorem at'_get (T : Table) (j : Fin 512) : T.get j = at' T j.val := by
  rw [at', List.getD_eq_getElem?_getD, List.getElem?_eq_getElem (by simp)]
  simp only [Option.getD_some, Vector.getElem_toList]
  rfl

theorem at'_set (T : Table) (i j : Nat) (v : U32) (hi : i < 512) (h : j ≠ i) : at' (T.set i v hi) j = at' T j := by
  simp only [at', List.getD_eq_getElem?_getD, Vector.toList_set]
  rw [List.getElem?_set_ne (Ne.symm h)]

theorem back12 (i : Nat) (hi : i < 512) : (back i 12).val = if i < 12 then 500 + i else i - 12 := by
  simp only [back]
  split <;> omega

theorem mixP_before (n : Nat) : ∀ (i : Nat) (cs : State) (j : Nat), j < i → at' (mixP n i cs).P j = at' cs.P j := by
  induction n with
  | zero => intro i cs j _; rfl
  | succ n ih =>
    intro i cs j h
    rw [mixP]
    split
    · rw [ih (i + 1) _ j (by omega)]
      exact at'_set _ _ _ _ (by assumption) (by omega)
    · rfl

theorem mixQ_before (n : Nat) : ∀ (i : Nat) (cs : State) (j : Nat), j < i → at' (mixQ n i cs).Q j = at' cs.Q j := by
  induction n with
  | zero => intro i cs j _; rfl
  | succ n ih =>
    intro i cs j h
    rw [mixQ]
    split
    · rw [ih (i + 1) _ j (by omega)]
      exact at'_set _ _ _ _ (by assumption) (by omega)
    · rfl

theorem flatMap_ext {α β : Type} (l : List α) (f g : α → List β) (h : ∀ a ∈ l, f a = g a) : l.flatMap f = l.flatMap g := by
  rw [List.flatMap_def, List.flatMap_def, List.map_congr_left h]

theorem mixPT_reads (n : Nat) : ∀ (i : Nat) (cs : State) (log : Reads), i + n ≤ 512 →
    (mixPT n i (cs, log)).2 = log ++ (List.range n).flatMap fun t => mixReads .P .Q (i + t)
      (if i + t < 12 then at' cs.P (500 + (i + t)) else at' (mixP n i cs).P (i + t - 12)) := by
  induction n with
  | zero => intro i cs log _; simp [mixPT]
  | succ n ih =>
    intro i cs log hb
    have hi : i < 512 := by omega
    rw [mixPT, mixP, dif_pos hi, dif_pos hi]
    dsimp only
    rw [ih (i + 1) _ _ (by omega), List.range_succ_eq_map, List.flatMap_cons, List.flatMap_map, List.append_assoc]
    generalize hv : feed g1 cs.P ⟨i, hi⟩ ^^^ h cs.Q (cs.P.get (back i 12)) = v
    have hx : cs.P.get (back i 12) = if i + 0 < 12 then at' cs.P (500 + (i + 0)) else at' (mixP n (i + 1)
        { cs with P := cs.P.set i v hi }).P (i + 0 - 12) := by
      rw [at'_get, back12 i hi]
      by_cases h12 : i < 12
      · rw [if_pos h12, if_pos (by omega)]; rfl
      · rw [if_neg h12, if_neg (by omega), mixP_before n (i + 1) _ _ (by omega)]
        exact (at'_set cs.P i (i + 0 - 12) v hi (by omega)).symm
    rw [← hx]
    congr 2
    · simp [mixReads, feedReads, hReads, Nat.mod_eq_of_lt hi]
    · refine flatMap_ext _ _ _ fun t _ => ?_
      rw [show i + (t + 1) = i + 1 + t by omega]
      congr 1
      by_cases h12 : i + 1 + t < 12
      · rw [if_pos h12, if_pos h12]
        exact at'_set cs.P i _ v hi (by omega)
      · rw [if_neg h12, if_neg h12]

theorem mixQT_reads (n : Nat) : ∀ (i : Nat) (cs : State) (log : Reads), i + n ≤ 512 →
    (mixQT n i (cs, log)).2 = log ++ (List.range n).flatMap fun t => mixReads .Q .P (i + t)
      (if i + t < 12 then at' cs.Q (500 + (i + t)) else at' (mixQ n i cs).Q (i + t - 12)) := by
  induction n with
  | zero => intro i cs log _; simp [mixQT]
  | succ n ih =>
    intro i cs log hb
    have hi : i < 512 := by omega
    rw [mixQT, mixQ, dif_pos hi, dif_pos hi]
    dsimp only
    rw [ih (i + 1) _ _ (by omega), List.range_succ_eq_map, List.flatMap_cons, List.flatMap_map, List.append_assoc]
    generalize hv : feed g2 cs.Q ⟨i, hi⟩ ^^^ h cs.P (cs.Q.get (back i 12)) = v
    have hx : cs.Q.get (back i 12) = if i + 0 < 12 then at' cs.Q (500 + (i + 0)) else at' (mixQ n (i + 1)
        { cs with Q := cs.Q.set i v hi }).Q (i + 0 - 12) := by
      rw [at'_get, back12 i hi]
      by_cases h12 : i < 12
      · rw [if_pos h12, if_pos (by omega)]; rfl
      · rw [if_neg h12, if_neg (by omega), mixQ_before n (i + 1) _ _ (by omega)]
        exact (at'_set cs.Q i (i + 0 - 12) v hi (by omega)).symm
    rw [← hx]
    congr 2
    · simp [mixReads, feedReads, hReads, Nat.mod_eq_of_lt hi]
    · refine flatMap_ext _ _ _ fun t _ => ?_
      rw [show i + (t + 1) = i + 1 + t by omega]
      congr 1
      by_cases h12 : i + 1 + t < 12
      · rw [if_pos h12, if_pos h12]
        exact at'_set cs.Q i _ v hi (by omega)
      · rw [if_neg h12, if_neg h12]

theorem mixP_keeps (n : Nat) : ∀ (i : Nat) (cs : State), (mixP n i cs).Q = cs.Q := by
  induction n with
  | zero => intro i cs; rfl
  | succ n ih => intro i cs; rw [mixP]; split <;> simp [ih]

theorem mixQ_keeps (n : Nat) : ∀ (i : Nat) (cs : State), (mixQ n i cs).P = cs.P := by
  induction n with
  | zero => intro i cs; rfl
  | succ n ih => intro i cs; rw [mixQ]; split <;> simp [ih]

theorem mixReads_iff (a b : Tab) (i : Nat) (x y : U32) :
    mixReads a b i x = mixReads a b i y ↔ byteN x 0 = byteN y 0 ∧ byteN x 2 = byteN y 2 := by
  rw [← stepReads_iff 0]
  simp [mixReads, stepReads]

/-- The reads of a whole pass of stage 3 over the table `T`: `old` is what was in the last twelve entries before. -/
def passReads (own other : Tab) (old : List U32) (T : Table) : Reads :=
  (List.range 512).flatMap fun i => mixReads own other i (if i < 12 then old.getD i 0 else at' T (i - 12))

/-- C143, what holds for the initialisation: the number of reads and all places but two of each iteration are fixed; these two
are at bytes 0 and 2 of the last twelve words copied into the table from the expanded key, and of the first 500 entries of
the table that results. -/
theorem hc128_init_reads_partial (key iv : List U8) :
    (initT key iv).2 = passReads .P .Q (((wArray key iv).drop 756).take 12) (init key iv).P ++
        passReads .Q .P (((wArray key iv).drop 1268).take 12) (init key iv).Q ∧
      (initT key iv).2.length = 7168 := by
  have hlen (a b : Tab) (f : Nat → U32) (n : Nat) : ((List.range n).flatMap fun i => mixReads a b i (f i)).length = 7 * n := by
    induction n with
    | zero => rfl
    | succ n ih => rw [List.range_succ, List.flatMap_append, List.length_append, ih]; simp [mixReads]; omega
  suffices h : (initT key iv).2 = passReads .P .Q (((wArray key iv).drop 756).take 12) (init key iv).P ++
        passReads .Q .P (((wArray key iv).drop 1268).take 12) (init key iv).Q by
    refine ⟨h, ?_⟩
    rw [h, List.length_append, passReads, passReads, hlen, hlen]
  rw [initT, init]
  generalize wArray key iv = w
  have hP (j : Nat) (hj : j < 512) : at' (Vector.ofFn fun i : Fin 512 => w.getD (i + 256) 0) j = w.getD (j + 256) 0 := by
    rw [at', List.getD_eq_getElem?_getD, List.getElem?_eq_getElem (by simpa using hj)]
    simp
  have hQ (j : Nat) (hj : j < 512) : at' (Vector.ofFn fun i : Fin 512 => w.getD (i + 768) 0) j = w.getD (j + 768) 0 := by
    rw [at', List.getD_eq_getElem?_getD, List.getElem?_eq_getElem (by simpa using hj)]
    simp
  have hd (a i : Nat) (hi : i < 12) : ((w.drop a).take 12).getD i 0 = w.getD (a + i) 0 := by
    simp [List.getD_eq_getElem?_getD, List.getElem?_drop, hi]
  generalize hc : (⟨Vector.ofFn fun i : Fin 512 => w.getD (i + 256) 0, Vector.ofFn fun i : Fin 512 => w.getD (i + 768) 0⟩ : State) = cs
  have eP (j : Nat) (hj : j < 512) : at' cs.P j = w.getD (j + 256) 0 := by rw [← hc]; exact hP j hj
  have eQ (j : Nat) (hj : j < 512) : at' cs.Q j = w.getD (j + 768) 0 := by rw [← hc]; exact hQ j hj
  clear hc hP hQ
  have h1 := mixPT_reads 512 0 cs [] (by decide)
  have h2 := mixPT_fst 512 0 (cs, [])
  have h3 := mixQ_keeps 512 0 (mixP 512 0 cs)
  have h4 := mixP_keeps 512 0 cs
  have h5 := mixQT_reads 512 0 (mixP 512 0 cs)
  generalize mixPT 512 0 (cs, []) = s at h1 h2 ⊢
  obtain ⟨s1, s2⟩ := s
  change s2 = _ at h1
  change s1 = _ at h2
  rw [h2, h5 s2 (by decide), h1, h3, List.nil_append, passReads, passReads]
  refine congr (congrArg _ ?_) ?_
  · refine flatMap_ext _ _ _ fun t _ => ?_
    rw [Nat.zero_add]
    refine congrArg (mixReads _ _ t) ?_
    by_cases h12 : t < 12
    · rw [if_pos h12, if_pos h12, hd _ _ h12, eP _ (by omega), show 500 + t + 256 = 756 + t by omega]
    · rw [if_neg h12, if_neg h12]
  · refine flatMap_ext _ _ _ fun t _ => ?_
    rw [Nat.zero_add, h4]
    refine congrArg (mixReads _ _ t) ?_
    by_cases h12 : t < 12
    · rw [if_pos h12, if_pos h12, hd _ _ h12, eQ _ (by omega), show 500 + t + 768 = 1268 + t by omega]
    · rw [if_neg h12, if_neg h12]

theorem passReads_bytes (own other : Tab) (old old' : List U32) (T T' : Table)
    (h : passReads own other old T = passReads own other old' T') (j : Nat) (hj : j < 500) :
    byteN (at' T j) 0 = byteN (at' T' j) 0 ∧ byteN (at' T j) 2 = byteN (at' T' j) 2 := by
  have key : ∀ (n : Nat) (f f' : Nat → U32), ((List.range n).flatMap fun i => mixReads own other i (f i)) =
      ((List.range n).flatMap fun i => mixReads own other i (f' i)) → ∀ i, i < n → mixReads own other i (f i) = mixReads own other i (f' i) := by
    intro n
    induction n with
    | zero => intro f f' _ i hi; omega
    | succ n ih =>
      intro f f' e i hi
      rw [List.range_succ, List.flatMap_append, List.flatMap_append] at e
      have := List.append_inj' e (by simp [mixReads])
      by_cases hin : i < n
      · exact ih f f' this.1 i hin
      · have : i = n := by omega
        subst this
        simpa using this.2
  have e := key 512 _ _ h (j + 12) (by omega)
  simp only [show ¬ j + 12 < 12 by omega, if_false, Nat.add_sub_cancel] at e
  exact (mixReads_iff own other _ _ _).mp e

/-- C143, how much is seen: who sees the reads of the initialisation knows two of the four bytes of the first 500 entries of
both tables: sessions with the same reads agree in them. -/
theorem hc128_init_reads_leak (key key' iv iv' : List U8) (h : (initT key iv).2 = (initT key' iv').2) (j : Nat) (hj : j < 500) (b : Nat)
    (hb : b = 0 ∨ b = 2) :
    byteN ((init key iv).P.toList.getD j 0) b = byteN ((init key' iv').P.toList.getD j 0) b ∧
      byteN ((init key iv).Q.toList.getD j 0) b = byteN ((init key' iv').Q.toList.getD j 0) b := by
  have e1 := hc128_init_reads_partial key iv
  have e2 := hc128_init_reads_partial key' iv'
  generalize initT key iv = a at h e1
  generalize initT key' iv' = a' at h e2
  rw [h] at e1
  have e := e1.1.symm.trans e2.1
  have hl (a b : Tab) (o : List U32) (T : Table) : (passReads a b o T).length = 3584 := by
    have : ∀ (f : Nat → U32) (n : Nat), ((List.range n).flatMap fun i => mixReads a b i (f i)).length = 7 * n := by
      intro f n
      induction n with
      | zero => rfl
      | succ n ih => rw [List.range_succ, List.flatMap_append, List.length_append, ih]; simp [mixReads]; omega
    exact this _ _
  obtain ⟨eP, eQ⟩ := List.append_inj e (by rw [hl, hl])
  obtain ⟨p0, p2⟩ := passReads_bytes _ _ _ _ _ _ eP j hj
  obtain ⟨q0, q2⟩ := passReads_bytes _ _ _ _ _ _ eQ j hj
  rcases hb with rfl | rfl
  · exact ⟨p0, q0⟩
  · exact ⟨p2, q2⟩

/-- Instances: 7168 reads, the first five of which are in table P at 0, 509, 502, 1 and 500. -/
example : (initT (List.replicate 16 0) (List.replicate 16 0)).2.length = 7168 := (hc128_init_reads_partial _ _).2
example (x : U32) : (mixReads .P .Q 0 x).take 5 = [(.P, 0), (.P, 509), (.P, 502), (.P, 1), (.P, 500)] := rfl

/-! ### They depend on the key -/

theorem mixPT_log (n : Nat) : ∀ (i : Nat) (cs : State) (log : Reads), ∃ t, (mixPT n i (cs, log)).2 = log ++ t := by
  induction n with
  | zero => intro i cs log; exact ⟨[], (List.append_nil _).symm⟩
  | succ n ih =>
    intro i cs log
    rw [mixPT]
    split
    · rename_i hi
      obtain ⟨t, ht⟩ := ih (i + 1) { cs with P := cs.P.set i (feed g1 cs.P ⟨i, hi⟩ ^^^ h cs.Q (cs.P.get (back i 12))) hi }
        (log ++ (feedReads .P ⟨i, hi⟩ ++ (.P, back i 12) :: hReads .Q (cs.P.get (back i 12))))
      exact ⟨_, by rw [ht, List.append_assoc]⟩
    · exact ⟨[], (List.append_nil _).symm⟩

theorem mixQT_log (n : Nat) : ∀ (i : Nat) (cs : State) (log : Reads), ∃ t, (mixQT n i (cs, log)).2 = log ++ t := by
  induction n with
  | zero => intro i cs log; exact ⟨[], (List.append_nil _).symm⟩
  | succ n ih =>
    intro i cs log
    rw [mixQT]
    split
    · rename_i hi
      obtain ⟨t, ht⟩ := ih (i + 1) { cs with Q := cs.Q.set i (feed g2 cs.Q ⟨i, hi⟩ ^^^ h cs.P (cs.Q.get (back i 12))) hi }
        (log ++ (feedReads .Q ⟨i, hi⟩ ++ (.Q, back i 12) :: hReads .P (cs.Q.get (back i 12))))
      exact ⟨_, by rw [ht, List.append_assoc]⟩
    · exact ⟨[], (List.append_nil _).symm⟩

/-- The sixth read of the initialisation is at the low byte of word 756 of the expanded key. -/
theorem init_sixth (key iv : List U8) : (initT key iv).2[5]? = some (.Q, lowIdx ((wArray key iv).getD 756 0)) := by
  rw [initT]
  generalize hc : (⟨Vector.ofFn fun i => (wArray key iv).getD (i + 256) 0, Vector.ofFn fun i => (wArray key iv).getD (i + 768) 0⟩ : State) = cs
  have hp : cs.P.get (back 0 12) = (wArray key iv).getD 756 0 := by
    have ev : ∀ (V : Table) (i : Fin 512), V.get i = V[i.val] := fun V i => rfl
    rw [← hc, ev, Vector.getElem_ofFn]
    generalize wArray key iv = w
    rfl
  have e : mixPT 512 0 (cs, []) = mixPT 511 1 ({ cs with P := cs.P.set 0 (feed g1 cs.P ⟨0, by decide⟩ ^^^ h cs.Q (cs.P.get (back 0 12))) (by decide) },
      [] ++ (feedReads .P ⟨0, by decide⟩ ++ (.P, back 0 12) :: hReads .Q (cs.P.get (back 0 12)))) := by
    rw [mixPT]; exact dif_pos (by decide)
  obtain ⟨t, ht⟩ := mixPT_log 511 1 { cs with P := cs.P.set 0 (feed g1 cs.P ⟨0, by decide⟩ ^^^ h cs.Q (cs.P.get (back 0 12))) (by decide) }
      ([] ++ (feedReads .P ⟨0, by decide⟩ ++ (.P, back 0 12) :: hReads .Q (cs.P.get (back 0 12))))
  rw [← e] at ht
  generalize mixPT 512 0 (cs, []) = s at ht ⊢
  obtain ⟨s1, s2⟩ := s
  obtain ⟨t', ht'⟩ := mixQT_log 512 0 s1 s2
  change s2 = _ at ht
  rw [ht', ht, hp]
  generalize (wArray key iv).getD 756 0 = x
  rfl

/-- The low bytes of word 756 of the expanded keys. -/
theorem word756 : lowIdx ((wArray (List.replicate 16 0) (List.replicate 16 0)).getD 756 0) ≠
    lowIdx ((wArray (1 :: List.replicate 15 0) (List.replicate 16 0)).getD 756 0) := by
  have e (k v : List U8) : (wArray k v) = (Fast.expandF 1264 16 (bytesToWordsLE k ++ bytesToWordsLE k ++ bytesToWordsLE v ++
      bytesToWordsLE v).reverse).reverse := by rw [Fast.expandF_eq]; rfl
  rw [e, e]
  decide +kernel

/-- C143 fails: the reads of the initialisation depend on the key. -/
theorem hc128_init_reads_refuted : ¬ ∀ key key' iv : List U8, key.length = 16 → key'.length = 16 → iv.length = 16 →
    (initT key iv).2 = (initT key' iv).2 := by
  intro h
  have h := h (List.replicate 16 0) (1 :: List.replicate 15 0) (List.replicate 16 0) rfl rfl rfl
  have e := init_sixth (List.replicate 16 0) (List.replicate 16 0)
  rw [h, init_sixth] at e
  exact word756 (Prod.mk.inj (Option.some.inj e)).2.symm

/-- The low byte of entry 500 of a packed table. -/
def entry500 (P _Q : Nat) : Nat := ((Fast.get P 500).setWidth 8).toNat

theorem entry500_eq (key iv : List U8) : Fast.initF key iv entry500 = (((init key iv).P.get (back 0 12)).setWidth 8).toNat := by
  obtain ⟨P, Q, hp, hq, e⟩ := Fast.initF_rep key iv
  rw [e, entry500, ← hp]
  rfl

theorem entries500 : Fast.initF (List.replicate 16 0) (List.replicate 16 0) entry500 ≠
    Fast.initF (1 :: List.replicate 15 0) (List.replicate 16 0) entry500 := by decide +kernel

/-- C143 fails also for the packets: the reads of a packet of one byte depend on the key. -/
theorem hc128_packet_reads_refuted : ¬ ∀ key key' iv p : List U8, key.length = 16 → key'.length = 16 → iv.length = 16 → p.length < 2 ^ 31 →
    ∀ s s' r r' out out', processPacketT (init key iv, []) ⟨p, p, false⟩ p.length = .ok ((s, r), out) →
      processPacketT (init key' iv, []) ⟨p, p, false⟩ p.length = .ok ((s', r'), out') → r = r' := by
  intro h
  have hf : (⟨[0], [0], false⟩ : Io).Fits 1 := by decide
  obtain ⟨s, s', out, out', r, r', h1, h2, -, -, h3⟩ := hc128_reads_partial (init (List.replicate 16 0) (List.replicate 16 0))
    (init (1 :: List.replicate 15 0) (List.replicate 16 0)) ⟨[0], [0], false⟩ ⟨[0], [0], false⟩ 1 hf hf (by decide)
  have h4 := h3.mp (h _ _ _ [0] rfl rfl rfl (by decide) s s' r r' out out' h1 h2)
  have ht (cs : State) : taps ((1 + 3) / 4) 0 cs = [cs.P.get (back 0 12)] := by
    have : (step cs 0).1.P = cs.P.set 0 (feed g1 cs.P ⟨0, by decide⟩) (by decide) := rfl
    change [tap cs 0] = _
    rw [tap, if_pos (by decide), this]
    have e : ∀ (V : Table) (i : Fin 512), V.get i = V[i.val] := fun V i => rfl
    rw [e, e, Vector.getElem_set_ne _ _ (by decide)]
  rw [ht, ht] at h4
  have h5 := (Prod.mk.inj (List.cons.inj h4).1).1
  refine entries500 ?_
  rw [entry500_eq, entry500_eq]
  have hb (x : U32) : x.setWidth 8 = byteN x 0 := by
    apply BitVec.eq_of_toNat_eq
    simp [byteN]
  rw [hb, hb, h5]

/-- Instances: a packet of five bytes makes sixteen reads. -/
example : (⟨[1, 2, 3, 4, 5], [0, 0, 0, 0, 0], false⟩ : Io).Fits 5 ∧ 8 * ((5 + 3) / 4) = 16 := by decide

end CT.Props.HC128Trace
