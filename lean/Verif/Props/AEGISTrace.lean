import Verif.Model.AEGISTrace
import Verif.Props.AESTrace
import Verif.Props.AEGIS

/-!
# C128: the table entries that the portable AEGIS code reads
-/

namespace CT.Props.AEGISTrace
open CT CT.AEGIS CT.AEGIS.Cache
open CT.AES (quadOf ctRd32 Reads roundT Table cut)

/-- The tables read by one round. -/
def roundTables : List Table :=
  [.T0, .T1, .T2, .T3, .T0, .T1, .T2, .T3, .T0, .T1, .T2, .T3, .T0, .T1, .T2, .T3]

/-- The tables read by `k` state updates: five rounds each. -/
def tables (k : Nat) : List Table := (List.replicate (5 * k) roundTables).flatten

theorem tables_add (j k : Nat) : tables (j + k) = tables j ++ tables k := by
  rw [tables, Nat.mul_add, List.replicate_add, List.flatten_append]; rfl

theorem roundT_tables (s k : Quad) : (roundT s k).reads.map Prod.fst = roundTables := by
  rw [Props.AES.roundT_reads]; rfl

/-- The entries that one state update reads: those at the bytes of the five registers. -/
def updReads (cs : State) : Reads :=
  (roundT cs.s4 ⟨0, 0, 0, 0⟩).reads ++ ((roundT cs.s0 ⟨0, 0, 0, 0⟩).reads ++ ((roundT cs.s1 ⟨0, 0, 0, 0⟩).reads ++
    ((roundT cs.s2 ⟨0, 0, 0, 0⟩).reads ++ (roundT cs.s3 ⟨0, 0, 0, 0⟩).reads)))

theorem updateT_eq (cs : State) (log : Reads) (m : Quad) :
    stateUpdateT (cs, log) m = (stateUpdate rndPortable cs m, log ++ updReads cs) := rfl

theorem updReads_tables (cs : State) : (updReads cs).map Prod.fst = tables 1 := by
  simp only [updReads, List.map_append, roundT_tables]; rfl

theorem roundReads_inj {s t : Quad} (h : (roundT s ⟨0, 0, 0, 0⟩).reads = (roundT t ⟨0, 0, 0, 0⟩).reads) : s = t := by
  simp only [Props.AES.roundT_reads, List.cons.injEq, Prod.mk.injEq, true_and, and_true] at h
  obtain ⟨a0, b8, c16, d24, b0, c8, d16, a24, c0, d8, a16, b24, d0, a8, b16, c24⟩ := h
  rcases s with ⟨_, _, _, _⟩
  rcases t with ⟨_, _, _, _⟩
  rw [Quad.mk.injEq]
  exact ⟨Props.AES.cut_inj a0 a8 a16 a24, Props.AES.cut_inj b0 b8 b16 b24, Props.AES.cut_inj c0 c8 c16 c24,
    Props.AES.cut_inj d0 d8 d16 d24⟩

theorem updReads_inj {c d : State} (h : updReads c = updReads d) :
    c.s0 = d.s0 ∧ c.s1 = d.s1 ∧ c.s2 = d.s2 ∧ c.s3 = d.s3 ∧ c.s4 = d.s4 := by
  have l : ∀ s t : Quad, (roundT s ⟨0, 0, 0, 0⟩).reads.length = (roundT t ⟨0, 0, 0, 0⟩).reads.length := fun _ _ => rfl
  rw [updReads, updReads] at h
  obtain ⟨h4, h⟩ := List.append_inj h (l ..)
  obtain ⟨h0, h⟩ := List.append_inj h (l ..)
  obtain ⟨h1, h⟩ := List.append_inj h (l ..)
  obtain ⟨h2, h3⟩ := List.append_inj h (l ..)
  exact ⟨roundReads_inj h0, roundReads_inj h1, roundReads_inj h2, roundReads_inj h3, roundReads_inj h4⟩

/-! ### The record changes nothing, and grows by a fixed amount per block -/

/-- `y`, started with the record `log`, does what `x` does and records the reads of `k` state updates. -/
def Ext {α β : Type} (f : α → Reads → β) (P : α → Nat → Prop) (log : Reads) (x : Res α) (y : Res β) : Prop :=
  match x with
  | .ok a => ∃ X k, y = .ok (f a (log ++ X)) ∧ X.map Prod.fst = tables k ∧ P a k
  | .ub w => y = .ub w

theorem Ext.bind {α β α' β' : Type} {f : α → Reads → β} {P : α → Nat → Prop} {f' : α' → Reads → β'} {P' : α → α' → Nat → Prop}
    {Q : α' → Nat → Prop} {log : Reads} {x : Res α} {y : Res β} {g : α → Res α'} {h : β → Res β'} (hx : Ext f P log x y)
    (hg : ∀ a L, Ext f' (P' a) L (g a) (h (f a L))) (hP : ∀ a k a' k', P a k → g a = .ok a' → P' a a' k' → Q a' (k + k')) :
    Ext f' Q log (x >>= g) (y >>= h) := by
  cases x with
  | ub w => rw [show y = .ub w from hx]; exact (rfl : Res.ub w = _)
  | ok a =>
    obtain ⟨X, k, e, e2, e3⟩ := hx
    have e := e
    rw [e, Res.ok_bind, Res.ok_bind]
    have := hg a (log ++ X)
    unfold Ext at this ⊢
    cases hga : g a with
    | ub w => rw [hga] at this; exact this
    | ok a' =>
      rw [hga] at this
      obtain ⟨Y, k', e4, e5, e6⟩ := this
      refine ⟨X ++ Y, k + k', ?_, ?_, hP a k a' k' e3 hga e6⟩
      · rw [e4, List.append_assoc]
      · rw [List.map_append, e2, e5, tables_add]

/-- The same actions before. -/
theorem Ext.pre {α α' β' : Type} {f' : α' → Reads → β'} {P : α' → Nat → Prop} {log : Reads} (x : Res α) {g : α → Res α'} {h : α → Res β'}
    (hg : ∀ a, x = .ok a → Ext f' P log (g a) (h a)) : Ext f' P log (x >>= g) (x >>= h) := by
  cases x with
  | ub w => exact (rfl : Res.ub w = _)
  | ok a => exact hg a rfl

theorem Ext.ok {α β : Type} {f : α → Reads → β} {P : α → Nat → Prop} {log : Reads} {a : α} (X : Reads) (k : Nat) {b : β}
    (hb : b = f a (log ++ X)) (hX : X.map Prod.fst = tables k) (hP : P a k) : Ext f P log (.ok a) (.ok b) :=
  ⟨X, k, by rw [hb], hX, hP⟩

theorem tables_zero : ([] : Reads).map Prod.fst = tables 0 := rfl

theorem Ext.prepend {α β : Type} {f : α → Reads → β} {P Q : α → Nat → Prop} {log X : Reads} {k : Nat} {x : Res α} {y : Res β}
    (h : Ext f P (log ++ X) x y) (hX : X.map Prod.fst = tables k) (hP : ∀ a k', P a k' → Q a (k + k')) : Ext f Q log x y := by
  cases x with
  | ub w => exact h
  | ok a =>
    obtain ⟨Y, k', e1, e2, e3⟩ := h
    exact ⟨X ++ Y, k + k', by rw [e1, List.append_assoc], by rw [List.map_append, hX, e2, tables_add], hP _ _ e3⟩

def pairT (c : State) (L : Reads) : State × Reads := (c, L)

theorem adLoopT_ext (n : Nat) : ∀ (cs : State) (log : Reads) (bs : List U8), ∃ X,
    adLoopT n (cs, log) bs = (adLoop rndPortable n cs bs, log ++ X) ∧ X.map Prod.fst = tables n := by
  induction n with
  | zero => intro cs log bs; exact ⟨[], by rw [List.append_nil]; rfl, rfl⟩
  | succ n ih =>
    intro cs log bs
    obtain ⟨X, h1, h2⟩ := ih (stateUpdate rndPortable cs (quadOf bs)) (log ++ updReads cs) (bs.drop 16)
    refine ⟨updReads cs ++ X, ?_, ?_⟩
    · rw [adLoopT, updateT_eq, h1, adLoop, List.append_assoc]
    · rw [List.map_append, updReads_tables, h2, ← tables_add, Nat.add_comm]

theorem processAdT_ext (cs : State) (log : Reads) (ad : List U8) (adlen : Nat) :
    Ext pairT (fun _ k => k = (adlen + 15) / 16) log (processAd rndPortable cs ad adlen) (processAdT (cs, log) ad adlen) := by
  rw [processAd, processAdT]
  by_cases h0 : adlen = 0
  · rw [if_pos h0, if_pos h0]
    exact Ext.ok [] 0 (by rw [List.append_nil]; rfl) rfl (by omega)
  · rw [if_neg h0, if_neg h0]
    split
    · exact (rfl : Res.ub _ = _)
    · split
      · exact (rfl : Res.ub _ = _)
      · obtain ⟨X, h1, h2⟩ := adLoopT_ext ((adlen + 15) / 16) cs log
          (if adlen % 16 ≠ 0 then ad.take adlen ++ List.replicate (16 - adlen % 16) 0 else ad.take adlen)
        exact Ext.ok X _ h1 h2 rfl

def loopT (a : Nat × State × Io) (L : Reads) : Nat × (State × Reads) × Io := (a.1, (a.2.1, L), a.2.2)
def msgT (a : State × Io) (L : Reads) : (State × Reads) × Io := ((a.1, L), a.2)

theorem blockLoopT_ext (dec : Bool) (bound fuel : Nat) : ∀ (tmp : Nat) (cs : State) (log : Reads) (io : Io), tmp < bound + 16 →
    Ext loopT (fun a k => a.1 = tmp + 16 * k ∧ bound ≤ a.1 ∧ a.1 < bound + 16) log
      (blockLoop rndPortable dec bound fuel tmp cs io) (blockLoopT dec bound fuel tmp (cs, log) io) := by
  induction fuel with
  | zero => intro tmp cs log io _; exact (rfl : Res.ub _ = _)
  | succ fuel ih =>
    intro tmp cs log io ht
    rw [blockLoop, blockLoopT]
    by_cases h : tmp < bound
    · rw [if_pos h, if_pos h]
      refine Ext.pre _ fun io1 _ => Ext.pre _ fun io2 _ => Ext.pre _ fun io3 _ => Ext.pre _ fun io4 _ => Ext.pre _ fun m _ => ?_
      rw [updateT_eq]
      refine Ext.prepend (ih (tmp + 16) _ _ io4 (by omega)) (updReads_tables cs) ?_
      intro a k' h
      exact ⟨by omega, h.2⟩
    · rw [if_neg h, if_neg h]
      exact Ext.ok [] 0 (by rw [List.append_nil]; rfl) rfl ⟨by omega, by omega, ht⟩

theorem lastBlockT_ext (dec : Bool) (n off : Nat) (cs : State) (log : Reads) (io : Io) :
    Ext msgT (fun _ k => k = 1) log (lastBlock rndPortable dec n off cs io) (lastBlockT dec n off (cs, log) io) := by
  rw [lastBlock, lastBlockT]
  refine Ext.pre _ fun b _ => Ext.pre _ fun r _ => Ext.pre _ fun io1 _ => Ext.pre _ fun bl _ => ?_
  rw [updateT_eq]
  exact Ext.ok (updReads cs) 1 rfl (updReads_tables cs) rfl

theorem cryptT_ext (dec : Bool) (cs : State) (log : Reads) (io : Io) (n : Nat) :
    Ext msgT (fun _ k => (n = 0 ∨ 15 ≤ n) → n < 2 ^ 64 → k = (n + 15) / 16) log (crypt rndPortable dec cs io n)
      (cryptT dec (cs, log) io n) := by
  rw [crypt, cryptT]
  by_cases h0 : n = 0
  · rw [if_pos h0, if_pos h0]
    exact Ext.ok [] 0 (by rw [List.append_nil]; rfl) rfl (by omega)
  · rw [if_neg h0, if_neg h0]
    generalize 2 ^ 60 = fuel
    have hb : 15 ≤ n → n < 2 ^ 64 → (n + (2 ^ 64 - 15)) % 2 ^ 64 = n - 15 := fun _ _ => by omega
    generalize (n + (2 ^ 64 - 15)) % 2 ^ 64 = bound at hb ⊢
    refine Ext.bind (P' := fun a _ k => k = if a.1 = n then 0 else 1) (blockLoopT_ext dec bound fuel 0 cs log io (by omega)) ?_ ?_
    · intro a L
      obtain ⟨t, c, i⟩ := a
      by_cases ht : t = n
      · rw [loopT]
        simp only []
        rw [if_pos ht, if_pos ht, if_pos ht]
        exact Ext.ok [] 0 (by rw [List.append_nil]; rfl) tables_zero rfl
      · rw [loopT]
        simp only []
        rw [if_neg ht, if_neg ht, if_neg ht]
        exact lastBlockT_ext dec (n - t) t c L i
    · intro a k a' k' h _ hk' hn hn2
      have := hb (by omega) hn2
      obtain ⟨h1, h2, h3⟩ := h
      split at hk' <;> omega

theorem updates_ext (cs : State) (log : Reads) (ms : List Quad) : ∃ X,
    ms.foldl stateUpdateT (cs, log) = (ms.foldl (stateUpdate rndPortable) cs, log ++ X) ∧ X.map Prod.fst = tables ms.length := by
  induction ms generalizing cs log with
  | nil => exact ⟨[], by rw [List.append_nil]; rfl, rfl⟩
  | cons m ms ih =>
    obtain ⟨X, h1, h2⟩ := ih (stateUpdate rndPortable cs m) (log ++ updReads cs)
    refine ⟨updReads cs ++ X, ?_, ?_⟩
    · rw [List.foldl_cons, updateT_eq, h1, List.foldl_cons, List.append_assoc]
    · rw [List.map_append, updReads_tables, h2, ← tables_add, List.length_cons, Nat.add_comm]

theorem finalizeT_ext (cs : State) (log : Reads) (adlen n : Nat) : ∃ X,
    finalizeT (cs, log) adlen n = (((finalize rndPortable cs adlen n).1, log ++ X), (finalize rndPortable cs adlen n).2) ∧
      X.map Prod.fst = tables 7 := by
  obtain ⟨X, h1, h2⟩ := updates_ext cs log (List.replicate 7
    (qxor ⟨lo64 (adlen * 8), hi64 (adlen * 8), lo64 (n * 8), hi64 (n * 8)⟩ cs.s3))
  simp only [List.replicate, List.foldl_cons, List.foldl_nil] at h1
  refine ⟨X, ?_, h2⟩
  rw [finalizeT, finalize]
  simp only [h1]

/-- The state of `aegis_initialize` before the first update (aegis_128.cpp:24-50). -/
def loaded (key : Quad) (iv : List U8) : State :=
  { key := key, s0 := qxor key (quadOf iv), s1 := quadOf (constant.drop 16), s2 := quadOf constant,
    s3 := qxor key (quadOf constant), s4 := qxor key (quadOf (constant.drop 16)) }

theorem loaded_key (key : Quad) (iv : List U8) : (loaded key iv).key = key := rfl

theorem update_key (rnd : Quad → Quad → Quad) (cs : State) (m : Quad) : (stateUpdate rnd cs m).key = cs.key := rfl

theorem initStateT_fold (cs : State) (log : Reads) (iv : List U8) : initStateT (cs, log) iv =
    [cs.key, qxor cs.key (quadOf iv), cs.key, qxor cs.key (quadOf iv), cs.key, qxor cs.key (quadOf iv), cs.key,
      qxor cs.key (quadOf iv), cs.key, qxor cs.key (quadOf iv)].foldl stateUpdateT (loaded cs.key iv, log) := by
  simp only [List.foldl_cons, List.foldl_nil]; rw [initStateT, loaded]

theorem initState_fold (cs : State) (iv : List U8) : initState rndPortable cs iv =
    [cs.key, qxor cs.key (quadOf iv), cs.key, qxor cs.key (quadOf iv), cs.key, qxor cs.key (quadOf iv), cs.key,
      qxor cs.key (quadOf iv), cs.key, qxor cs.key (quadOf iv)].foldl (stateUpdate rndPortable) (loaded cs.key iv) := by
  simp only [List.foldl_cons, List.foldl_nil]; rw [initState]
  have hl : (⟨cs.key, qxor cs.key (quadOf iv), quadOf (constant.drop 16), quadOf constant, qxor cs.key (quadOf constant),
      qxor cs.key (quadOf (constant.drop 16))⟩ : State) = loaded cs.key iv := rfl
  simp only [hl, update_key, loaded_key]

theorem initStateT_ext (cs : State) (log : Reads) (iv : List U8) : ∃ X,
    initStateT (cs, log) iv = (initState rndPortable cs iv, log ++ (updReads (loaded cs.key iv) ++ X)) ∧
      X.map Prod.fst = tables 9 := by
  rw [initStateT_fold, initState_fold]
  generalize loaded cs.key iv = c
  generalize qxor cs.key (quadOf iv) = t
  obtain ⟨X, h1, h2⟩ := updates_ext (stateUpdate rndPortable c cs.key) (log ++ updReads c) [t, cs.key, t, cs.key, t, cs.key, t, cs.key, t]
  refine ⟨X, ?_, h2⟩
  rw [List.foldl_cons, updateT_eq, h1, List.append_assoc, ← List.foldl_cons (f := stateUpdate rndPortable)]

def sealT (a : State × Io × List U8) (L : Reads) : (State × Reads) × Io × List U8 := ((a.1, L), a.2)
def openT (a : State × Io × List U8 × Int) (L : Reads) : (State × Reads) × Io × List U8 × Int := ((a.1, L), a.2)

/-- State updates of a packet. -/
def updates (adlen n : Nat) : Nat := 10 + (adlen + 15) / 16 + (n + 15) / 16 + 7

/-- The packet functions with the record: what they do without, and what is recorded after the first update. -/
theorem encryptPacketT_ext (cs : State) (log : Reads) (io : Io) (ad iv : List U8) (adlen n : Nat) :
    Ext sealT (fun _ k => (n = 0 ∨ 15 ≤ n) → n < 2 ^ 64 → 1 + k = updates adlen n) (log ++ updReads (loaded cs.key iv))
      (encryptPacket rndPortable cs io ad iv adlen n) (encryptPacketT (cs, log) io ad iv adlen n) := by
  rw [encryptPacket, encryptPacketT]
  obtain ⟨X, hX, hX2⟩ := initStateT_ext cs log iv
  simp only [hX]
  rw [← List.append_assoc]
  refine Ext.prepend (k := 9) (X := X) (P := fun _ k => (n = 0 ∨ 15 ≤ n) → n < 2 ^ 64 → 10 + k = updates adlen n) ?_ hX2
    (fun a k h h1 h2 => by have := h h1 h2; omega)
  refine Ext.bind (P' := fun _ _ k => (n = 0 ∨ 15 ≤ n) → n < 2 ^ 64 → k = (n + 15) / 16 + 7) (processAdT_ext _ _ ad adlen) ?_
    (fun a k a' k' h _ h' h1 h2 => by have := h' h1 h2; unfold updates; omega)
  intro c L
  refine Ext.bind (P' := fun _ _ k => k = 7) (cryptT_ext false c L io n) ?_
    (fun a k a' k' h _ h' h1 h2 => by have := h h1 h2; omega)
  intro a L'
  obtain ⟨Y, hY, hY2⟩ := finalizeT_ext a.1 L' adlen n
  simp only [msgT, hY]
  exact Ext.ok Y 7 rfl hY2 rfl

theorem decryptPacketT_ext (cs : State) (log : Reads) (io : Io) (ad iv tag : List U8) (adlen n : Nat) :
    Ext openT (fun _ k => (n = 0 ∨ 15 ≤ n) → n < 2 ^ 64 → 1 + k = updates adlen n) (log ++ updReads (loaded cs.key iv))
      (decryptPacket rndPortable cs io ad iv tag adlen n) (decryptPacketT (cs, log) io ad iv tag adlen n) := by
  rw [decryptPacket, decryptPacketT]
  obtain ⟨X, hX, hX2⟩ := initStateT_ext cs log iv
  simp only [hX]
  rw [← List.append_assoc]
  refine Ext.prepend (k := 9) (X := X) (P := fun _ k => (n = 0 ∨ 15 ≤ n) → n < 2 ^ 64 → 10 + k = updates adlen n) ?_ hX2
    (fun a k h h1 h2 => by have := h h1 h2; omega)
  refine Ext.bind (P' := fun _ _ k => (n = 0 ∨ 15 ≤ n) → n < 2 ^ 64 → k = (n + 15) / 16 + 7) (processAdT_ext _ _ ad adlen) ?_
    (fun a k a' k' h _ h' h1 h2 => by have := h' h1 h2; unfold updates; omega)
  intro c L
  refine Ext.bind (P' := fun _ _ k => k = 7) (cryptT_ext true c L io n) ?_
    (fun a k a' k' h _ h' h1 h2 => by have := h h1 h2; omega)
  intro a L'
  obtain ⟨Y, hY, hY2⟩ := finalizeT_ext a.1 L' adlen n
  simp only [msgT, hY]
  by_cases ht : (finalize rndPortable a.1 adlen n).2 ≠ quadOf tag
  · rw [if_pos ht, if_pos ht]
    refine Ext.pre _ fun o _ => Ext.pre _ fun t _ => ?_
    exact Ext.ok Y 7 rfl hY2 rfl
  · rw [if_neg ht, if_neg ht]
    exact Ext.ok Y 7 rfl hY2 rfl

theorem Ext.erase {α β : Type} {f : α → Reads → β} {P : α → Nat → Prop} {log : Reads} {x : Res α} {y : Res β} (h : Ext f P log x y)
    (g : β → α) (hg : ∀ a L, g (f a L) = a) : (do let b ← y; return g b) = x := by
  cases x with
  | ub w => rw [show y = .ub w from h]; rfl
  | ok a =>
    obtain ⟨X, k, e, _⟩ := h
    rw [e, Res.ok_bind, hg]; rfl

theorem Ext.log {α β : Type} {f : α → Reads → β} {P : α → Nat → Prop} {log : Reads} {x : Res α} {y : Res β} (h : Ext f P log x y)
    {b : β} (hb : y = .ok b) : ∃ a X k, x = .ok a ∧ b = f a (log ++ X) ∧ X.map Prod.fst = tables k ∧ P a k := by
  cases x with
  | ub w => rw [show y = .ub w from h] at hb; cases hb
  | ok a =>
    obtain ⟨X, k, e, e1, e2⟩ := h
    rw [e, Res.ok_inj] at hb
    exact ⟨a, X, k, rfl, hb.symm, e1, e2⟩

/-! ### C128 -/

/-- The record is an addition: without it the functions are those of the model of the portable build, also where they are
undefined. -/
theorem aegis_reads_erase (cs : State) (log : Reads) (io : Io) (ad iv tag : List U8) (adlen n : Nat) :
    (do let r ← encryptPacketT (cs, log) io ad iv adlen n; return (r.1.1, r.2)) = encryptPacket rndPortable cs io ad iv adlen n ∧
    (do let r ← decryptPacketT (cs, log) io ad iv tag adlen n; return (r.1.1, r.2)) =
      decryptPacket rndPortable cs io ad iv tag adlen n :=
  ⟨(encryptPacketT_ext cs log io ad iv adlen n).erase (fun b => (b.1.1, b.2)) fun _ _ => rfl,
    (decryptPacketT_ext cs log io ad iv tag adlen n).erase (fun b => (b.1.1, b.2)) fun _ _ => rfl⟩

/-- The reads of a packet, sealed or opened. -/
inductive Packet : (key iv : List U8) → (adlen n : Nat) → Reads → Prop
  | enc {cs : State} {key iv ad : List U8} {io io' : Io} {adlen n : Nat} {cs' : State} {t : List U8} {log : Reads} :
    encryptPacketT (loadKey cs key, []) io ad iv adlen n = .ok ((cs', log), io', t) → Packet key iv adlen n log
  | dec {cs : State} {key iv ad tag : List U8} {io io' : Io} {adlen n : Nat} {cs' : State} {t : List U8} {r : Int} {log : Reads} :
    decryptPacketT (loadKey cs key, []) io ad iv tag adlen n = .ok ((cs', log), io', t, r) → Packet key iv adlen n log

theorem packet_log {key iv : List U8} {adlen n : Nat} {log : Reads} (h : Packet key iv adlen n log) :
    ∃ X k, log = updReads (loaded (quadOf key) iv) ++ X ∧ X.map Prod.fst = tables k ∧
      ((n = 0 ∨ 15 ≤ n) → n < 2 ^ 64 → 1 + k = updates adlen n) := by
  have key_eq : ∀ cs : State, (loadKey cs key).key = quadOf key := fun _ => rfl
  cases h with
  | @enc cs _ _ ad io io' _ _ cs' t _ h =>
    obtain ⟨⟨c, r⟩, X, k, _, h1, h2, h3⟩ := (encryptPacketT_ext (loadKey cs key) [] io ad iv adlen n).log h
    rw [sealT, Prod.mk.injEq, Prod.mk.injEq, List.nil_append, key_eq] at h1
    exact ⟨X, k, h1.1.2, h2, h3⟩
  | @dec cs _ _ ad tag io io' _ _ cs' t r _ h =>
    obtain ⟨⟨c, r⟩, X, k, _, h1, h2, h3⟩ := (decryptPacketT_ext (loadKey cs key) [] io ad iv tag adlen n).log h
    rw [openT, Prod.mk.injEq, Prod.mk.injEq, List.nil_append, key_eq] at h1
    exact ⟨X, k, h1.1.2, h2, h3⟩

theorem quadOf_inj {a b : List U8} (ha : a.length = 16) (hb : b.length = 16) (h : quadOf a = quadOf b) : a = b := by
  rw [← AES.quadOf_bytes ha, ← AES.quadOf_bytes hb, h]

theorem qxor_left {a b c : Quad} (h : qxor a c = qxor b c) : a = b := by
  rcases a with ⟨_, _, _, _⟩
  rcases b with ⟨_, _, _, _⟩
  simp only [qxor, Quad.mk.injEq, BitVec.xor_left_inj] at h ⊢
  exact h

theorem qxor_right {a b c : Quad} (h : qxor c a = qxor c b) : a = b := by
  rcases a with ⟨_, _, _, _⟩
  rcases b with ⟨_, _, _, _⟩
  simp only [qxor, Quad.mk.injEq, BitVec.xor_right_inj] at h ⊢
  exact h

/-- **C128.**  In the strongest way: the first eighty entries that a packet reads, whether it is sealed or opened, accepted or
rejected, and whatever the messages and the data, determine the key and the IV. -/
theorem aegis_reads_determine_key {key key' iv iv' : List U8} {adlen adlen' n n' : Nat} {log log' : Reads}
    (hk : key.length = 16) (hk' : key'.length = 16) (hiv : iv.length = 16) (hiv' : iv'.length = 16)
    (h : Packet key iv adlen n log) (h' : Packet key' iv' adlen' n' log') (e : log.take 80 = log'.take 80) :
    key = key' ∧ iv = iv' := by
  obtain ⟨X, _, rfl, _⟩ := packet_log h
  obtain ⟨X', _, rfl, _⟩ := packet_log h'
  have tk : ∀ (c : State) (X : Reads), (updReads c ++ X).take 80 = updReads c := fun c X => by
    rw [List.take_append_of_le_length (by exact Nat.le_refl 80), List.take_of_length_le (by exact Nat.le_refl 80)]
  rw [tk, tk] at e
  obtain ⟨h0, _, _, h3, _⟩ := updReads_inj e
  have ek : quadOf key = quadOf key' := qxor_left h3
  have ei : quadOf iv = quadOf iv' := by
    have h0 : qxor (quadOf key) (quadOf iv) = qxor (quadOf key') (quadOf iv') := h0
    rw [ek] at h0
    exact qxor_right h0
  exact ⟨quadOf_inj hk hk' ek, quadOf_inj hiv hiv' ei⟩

/-- **C128.**  What does hold: which tables are read, in which order and how often, depends on the two lengths alone: eighty reads
for each of the ten updates of the set-up, for each block of associated data, for each block of the message and for each of the
seven updates of the tag. -/
theorem aegis_reads_partial {key key' iv iv' : List U8} {adlen n : Nat} {log log' : Reads} (hn : n = 0 ∨ 15 ≤ n) (hn2 : n < 2 ^ 64)
    (h : Packet key iv adlen n log) (h' : Packet key' iv' adlen n log') :
    log.length = 80 * (17 + (adlen + 15) / 16 + (n + 15) / 16) ∧ log.map Prod.fst = log'.map Prod.fst := by
  obtain ⟨X, k, rfl, h1, h2⟩ := packet_log h
  obtain ⟨X', k', rfl, h1', h2'⟩ := packet_log h'
  have := h2 hn hn2
  have := h2' hn hn2
  have lt : ∀ j, (tables j).length = 80 * j := fun j => by
    rw [tables, List.length_flatten, List.map_replicate, List.sum_replicate_nat]
    have : roundTables.length = 16 := rfl
    rw [this]; omega
  have le : (updReads (loaded (quadOf key) iv)).length + X.length = 80 * (1 + k) := by
    rw [← List.length_map (f := Prod.fst) (as := X), h1, lt]
    have : (updReads (loaded (quadOf key) iv)).length = 80 := rfl
    omega
  constructor
  · rw [List.length_append, le]
    unfold updates at *; omega
  · rw [List.map_append, List.map_append, updReads_tables, updReads_tables, h1, h1', show k = k' by omega]

/-- A context with some contents. -/
def blank : State := ⟨⟨0, 0, 0, 0⟩, ⟨0, 0, 0, 0⟩, ⟨0, 0, 0, 0⟩, ⟨0, 0, 0, 0⟩, ⟨0, 0, 0, 0⟩, ⟨0, 0, 0, 0⟩⟩

theorem seal_runs (cs : State) (key iv ad : List U8) (io : Io) (n : Nat) (hk : key.length = 16) (hiv : iv.length = 16)
    (had : ad.length ≤ 2 ^ 33) (h15 : n = 0 ∨ 15 ≤ n) (hn : n < 2 ^ 64) (hf : io.Fits n) (ha : io.alias = false) :
    ∃ c l i t, encryptPacketT (loadKey cs key, []) io ad iv ad.length n = .ok ((c, l), i, t) := by
  obtain ⟨c, h⟩ := Props.AEGIS.aegis_conforms_partial (Or.inl rfl) cs key iv ad io n hk hiv had h15 hn hf ha
  have e := encryptPacketT_ext (loadKey cs key) [] io ad iv ad.length n
  rw [h] at e
  obtain ⟨X, k, e, _⟩ := e
  exact ⟨_, _, _, _, e⟩

/-- **C128 is false:** the entries read depend on the key (here with the IV, the data and the message fixed). -/
theorem aegis_reads_refuted : ¬ ∀ (cs : State) (key key' iv ad : List U8) (io io1 io2 : Io) (n : Nat) (c1 c2 : State)
    (t1 t2 : List U8) (log log' : Reads), key.length = 16 → key'.length = 16 → iv.length = 16 → io.Fits n → 15 ≤ n →
    encryptPacketT (loadKey cs key, []) io ad iv ad.length n = .ok ((c1, log), io1, t1) →
    encryptPacketT (loadKey cs key', []) io ad iv ad.length n = .ok ((c2, log'), io2, t2) → log = log' := by
  intro h
  have ex : ∀ b : U8, ∃ c l i t, encryptPacketT (loadKey blank (List.replicate 16 b), [])
      ⟨List.replicate 16 0, List.replicate 16 0, false⟩ [] (List.replicate 16 0) 0 16 = .ok ((c, l), i, t) := fun b =>
    seal_runs blank (List.replicate 16 b) (List.replicate 16 0) [] ⟨List.replicate 16 0, List.replicate 16 0, false⟩ 16 (by simp)
      (by simp) (by simp) (Or.inr (by omega)) (by omega) (by decide) rfl
  obtain ⟨c1, l1, i1, t1, h1⟩ := ex 0
  obtain ⟨c2, l2, i2, t2, h2⟩ := ex 1
  have e := h blank _ _ _ [] _ i1 i2 16 c1 c2 t1 t2 l1 l2 (by simp) (by simp) (by simp) (by decide) (by omega) h1 h2
  have := (aegis_reads_determine_key (by simp) (by simp) (by simp) (by simp) (Packet.enc h1) (Packet.enc h2) (by rw [e])).1
  exact absurd this (by decide)

/-- Non-trivial instance: a packet with associated data and a partial last block. -/
example : ∃ log, Packet (List.replicate 16 1) (List.replicate 16 2) 5 20 log := by
  obtain ⟨c, l, i, t, h⟩ := seal_runs blank (List.replicate 16 1) (List.replicate 16 2) [1, 2, 3, 4, 5]
    ⟨List.replicate 20 3, List.replicate 20 0, false⟩ 20 (by simp) (by simp) (by simp) (Or.inr (by omega)) (by omega) (by decide) rfl
  exact ⟨l, Packet.enc h⟩

/-- The hypotheses are met by a packet compared with itself. -/
example : ∃ log, Packet (List.replicate 16 1) (List.replicate 16 2) 5 20 log ∧ log.take 80 = log.take 80 := by
  obtain ⟨c, l, i, t, h⟩ := seal_runs blank (List.replicate 16 1) (List.replicate 16 2) [1, 2, 3, 4, 5]
    ⟨List.replicate 20 3, List.replicate 20 0, false⟩ 20 (by simp) (by simp) (by simp) (Or.inr (by omega)) (by omega) (by decide) rfl
  exact ⟨l, Packet.enc h, rfl⟩

/-- Two packets under different keys with the same table and entry counts. -/
example : ∃ log log', Packet (List.replicate 16 1) (List.replicate 16 2) 5 20 log ∧ Packet (List.replicate 16 3) (List.replicate 16 2) 5 20 log' ∧
    log.map Prod.fst = log'.map Prod.fst := by
  obtain ⟨c, l, i, t, h⟩ := seal_runs blank (List.replicate 16 1) (List.replicate 16 2) [1, 2, 3, 4, 5]
    ⟨List.replicate 20 3, List.replicate 20 0, false⟩ 20 (by simp) (by simp) (by simp) (Or.inr (by omega)) (by omega) (by decide) rfl
  obtain ⟨c', l', i', t', h'⟩ := seal_runs blank (List.replicate 16 3) (List.replicate 16 2) [1, 2, 3, 4, 5]
    ⟨List.replicate 20 3, List.replicate 20 0, false⟩ 20 (by simp) (by simp) (by simp) (Or.inr (by omega)) (by omega) (by decide) rfl
  exact ⟨l, l', Packet.enc h, Packet.enc h', (aegis_reads_partial (Or.inr (by decide)) (by decide) (Packet.enc h) (Packet.enc h')).2⟩

end CT.Props.AEGISTrace
