import Verif.Model.Hold
import Verif.Model.Archive
import Verif.Spec.Hold
import Verif.Props.Remote
import Verif.Props.RemoteSource
import Verif.Props.Rpc

/-! # C100: what a peer can make a process hold -/

set_option maxRecDepth 8000

namespace Verif.Hold
open Verif Verif.Metadata Verif.Remote Verif.Disk

/-! ## The client of a stripe server -/

theorem recv_val {α : Type} (n : Nat) (cs : List Bytes) (f : Bytes → List Bytes → Use α) :
    (recv n cs f).val = Remote.recv n cs fun b cs => (f b cs).val := by
  unfold recv Remote.recv
  split <;> rename_i h <;> simp only [h]

theorem metadata_val (cs : List Bytes) : (metadata cs).val = clientMetadata cs := by
  unfold metadata clientMetadata
  rw [recv_val]
  congr 1
  funext st cs
  simp only
  split
  · rfl
  · rw [recv_val]
    congr 1
    funext szb cs
    (repeat' split)
    · rfl
    · rfl
    · rw [recv_val]

theorem hello_val (cs : List Bytes) : (hello cs).val = clientHello cs := by
  unfold hello clientHello
  rw [recv_val]
  congr 1
  funext st cs
  simp only
  (repeat' split)
  · rfl
  · rfl
  · rw [recv_val]
    congr 1
    funext v cs
    split <;> rfl

theorem connect_val (cs : List Bytes) : (connect cs).val = clientConnect cs := by
  unfold connect clientConnect
  rw [← hello_val]
  split <;> rename_i h <;> simp only [h, metadata_val]

theorem fetch_val (md : Option Meta) (cs : List Bytes) : (fetch md cs).val = clientFetch md cs := by
  cases md with
  | none => rfl
  | some m =>
    show (recv 1 cs _).val = _
    unfold clientFetch
    rw [recv_val]
    simp only
    congr 1
    funext st cs
    (repeat' split)
    · rw [recv_val]
      congr 1
      funext szb cs
      split
      · rfl
      · rw [recv_val]; rfl
    · rfl
    · rfl
    · rfl

/-- **C100** The calls with their buffers counted are those of `C30`. -/
theorem C100_same (md : Option Meta) (cs : List Bytes) : (connect cs).val = clientConnect cs ∧ (fetch md cs).val = clientFetch md cs :=
  ⟨connect_val cs, fetch_val md cs⟩

theorem total_nil : total [] = 0 := rfl
theorem total_cons (x : Nat) (l : List Nat) : total (x :: l) = x + total l := rfl
theorem total_append (l l' : List Nat) : total (l ++ l') = total l + total l' := by
  induction l with
  | nil => simp [total_nil]
  | cons x l ih => rw [List.cons_append, total_cons, total_cons, ih]; omega

theorem readExact_length {n : Nat} {cs cs' : List Bytes} {b : Bytes} (h : readExact n cs = some (b, cs')) : b.length = n := by
  obtain ⟨h1, h2⟩ := readExact_eq cs n
  by_cases hn : n ≤ cs.flatten.length
  · obtain ⟨cs2, e, -⟩ := h2 hn
    rw [e] at h
    simp only [Option.some.injEq, Prod.mk.injEq] at h
    rw [← h.1, List.length_take]
    omega
  · rw [h1 (by omega)] at h
    cases h

theorem recv_total {α : Type} {n b : Nat} {cs : List Bytes} {f : Bytes → List Bytes → Use α}
    (h : ∀ t cs', t.length = n → total (f t cs').bufs ≤ b) : total (recv n cs f).bufs ≤ n + b := by
  unfold recv
  split
  · simp only [total_cons, total_nil]; omega
  · rename_i t cs' he
    have := h t cs' (readExact_length he)
    simp only [total_cons]; omega

theorem parsed_total (buf : Bytes) : total (parsed buf) ≤ buf.length := by
  unfold parsed
  (repeat' split) <;> simp only [total_nil, total_cons] <;> try omega
  rename_i h1 h2 _ _ _ _ h
  unfold divCeil
  generalize fromLe (slice buf 14 4) = c at *
  omega

theorem metadata_total (cs : List Bytes) : total (metadata cs).bufs ≤ 9 + 128 * MiB := by
  have hm : MAX_REMOTE_METADATA_SIZE = 64 * MiB := by decide
  have : total (metadata cs).bufs ≤ 1 + (8 + 128 * MiB) := by
    refine recv_total fun st cs' _ => ?_
    simp only
    split
    · simp [done, total_nil]
    · refine recv_total fun szb cs'' _ => ?_
      (repeat' split)
      · simp [done, total_nil]
      · simp [done, total_nil]
      · rename_i h
        refine Nat.le_trans (recv_total (b := fromLe szb) fun buf cs3 hb => ?_) (by omega)
        have := parsed_total buf
        simp only
        omega
  omega

theorem hello_total (cs : List Bytes) : total (hello cs).bufs ≤ 5 := by
  refine recv_total (b := 4) fun st cs' _ => ?_
  simp only
  (repeat' split)
  · simp [done, total_nil]
  · simp [done, total_nil]
  · refine recv_total (b := 0) fun v cs'' _ => ?_
    split <;> simp [done, total_nil]

/-- **C100** Whatever a stripe server sends while a client connects, and however it cuts it into pieces, the client makes buffers of at
most 128 MiB and 14 bytes. -/
theorem C100_connect (cs : List Bytes) : total (connect cs).bufs ≤ 128 * MiB + 14 := by
  unfold connect
  have h1 := hello_total cs
  split
  · simp only; omega
  · rename_i cs' _
    have h2 := metadata_total cs'
    simp only [total_append]
    omega

theorem stripeSize_le {m : Meta} (h : m.shift.toNat ≤ 17) : stripeSize m ≤ 64 * MiB := by
  unfold stripeSize stripeSectorCount
  have : 2 ^ m.shift.toNat ≤ 2 ^ 17 := Nat.pow_le_pow_right (by decide) h
  have e : 64 * MiB = 2 ^ 17 * 512 := by decide
  rw [e]
  exact Nat.mul_le_mul_right _ this

theorem metadata_kept {cs cs' : List Bytes} {m : Meta} (h : clientMetadata cs = (.ok m, cs')) :
    m.headers.length ≤ 64 * MiB ∧ m.shift.toNat ≤ 17 := by
  have hm : MAX_REMOTE_METADATA_SIZE = 64 * MiB := by decide
  unfold clientMetadata Remote.recv at h
  split at h
  · simp at h
  · simp only at h
    split at h
    · simp at h
    · split at h
      · simp at h
      · rename_i szb cs3 _
        split at h
        · simp at h
        · split at h
          · simp at h
          · rename_i hsz
            split at h
            · simp at h
            · rename_i buf cs4 hb
              simp only [Prod.mk.injEq] at h
              have hl := readExact_length hb
              unfold decodeMeta at h
              split at h
              · simp at h
              · rename_i m' hf
                simp only [Except.ok.injEq] at h
                obtain ⟨h1, -, -, -, -, -, -, -, h9, -, h11, -⟩ := fromBytes_ok hf
                rw [← h.1]
                unfold divCeil at h11
                exact ⟨by omega, h9⟩

/-- **C100** What a connected client keeps is at most 64 MiB of stripe headers, and a stripe has at most 64 MiB. -/
theorem C100_kept {cs cs' : List Bytes} {m : Meta} (h : clientConnect cs = (.ok m, cs')) : m.headers.length ≤ 64 * MiB ∧ stripeSize m ≤ 64 * MiB := by
  unfold clientConnect at h
  split at h
  · simp at h
  · obtain ⟨h1, h2⟩ := metadata_kept h
    exact ⟨h1, stripeSize_le h2⟩

/-- **C100** Whatever the server answers to a connected client's request for a stripe, the client makes buffers of at most 64 MiB and 18 bytes: the size
in the answer is not believed. -/
theorem C100_fetch {cs cs' : List Bytes} {m : Meta} (h : clientConnect cs = (.ok m, cs')) (cs2 : List Bytes) :
    total (fetch (some m) cs2).bufs ≤ 64 * MiB + 18 := by
  have hs := (C100_kept h).2
  show total (9 :: (recv 1 cs2 _).bufs) ≤ _
  rw [total_cons]
  refine Nat.le_trans (Nat.add_le_add_left (recv_total (b := 8 + stripeSize m) fun st cs3 _ => ?_) 9) (by omega)
  dsimp only
  (repeat' split)
  · refine recv_total fun szb cs4 _ => ?_
    split
    · simp [done, total_nil]
    · refine Nat.le_trans (recv_total (b := 0) fun d cs5 _ => ?_) (by omega)
      simp [done, total_nil]
  · simp [done, total_nil]
  · simp [done, total_nil]
  · simp [done, total_nil]

/-- A client of the example server, whose next answer announces another size than a stripe's: nothing is made for it. -/
example : ∃ rest, clientConnect [demoSrv.serve [[2, 0] ++ readRequest 3 ++ readRequest 2]] = (.ok demoSrv.md, rest) ∧
    (fetch (some demoSrv.md) [STATUS_OK :: le 8 (2 ^ 60)]).bufs = [9, 1, 8] := by
  obtain ⟨rest, h1, -⟩ := C30_conversation demoSrv demoSrv_sized demoSrv_saveable (by decide) (fun _ => rfl) (fun _ => rfl)
    [3, 2] (by decide) [[2, 0] ++ readRequest 3 ++ readRequest 2] [_] (by simp [HELLO_CMD, METADATA_CMD]) (by simp; rfl)
  exact ⟨rest, h1, by decide +kernel⟩

/-- The bytes of the results that wait to be collected. -/
def waiting (s : Src) : Nat := total (s.results.map fun p => match p.2 with | .ok d => d.length | .error _ => 0)

theorem results_fetched {bufs : Nat → Bytes} {es : List SrcEv} {s : Src} (h : Src.Run (Src.init bufs) es s) :
    ∀ k r, (k, r) ∈ s.results → SrcEv.fetched k r ∈ es := by
  generalize hs0 : Src.init bufs = s0 at h
  induction h with
  | nil => subst hs0; intro k r h; simp [Src.init] at h
  | @snoc s1 s2 es es' hr hst ih =>
    intro k r hk
    cases hst with
    | request k' b => exact List.mem_append_left _ (ih k r hk)
    | take k' q hq => exact List.mem_append_left _ (ih k r hk)
    | finish k' r' hw =>
      simp only [List.mem_append, List.mem_singleton, Prod.mk.injEq] at hk ⊢
      rcases hk with hk | ⟨rfl, rfl⟩
      · exact .inl (ih k r hk)
      · exact .inr rfl
    | poll k' r' t hres =>
      refine List.mem_append_left _ (ih k r ?_)
      have e : (Src.pollOne { s1 with results := t } k' r').1.results = t := by
        unfold Src.pollOne
        (repeat' split) <;> rfl
      rw [e] at hk
      rw [hres]
      exact List.mem_cons_of_mem _ hk

theorem nodup_length_le : ∀ {l ks : List Nat}, l.Nodup → (∀ k ∈ l, k ∈ ks) → l.length ≤ ks.length
  | [], _, _, _ => Nat.zero_le _
  | x :: l, ks, hnd, hm => by
    obtain ⟨h1, h2⟩ := List.nodup_cons.1 hnd
    have hx := hm x (by simp)
    have := nodup_length_le (l := l) (ks := ks.erase x) h2 fun k hk => by
      have hne : k ≠ x := by rintro rfl; exact h1 hk
      exact (List.mem_erase_of_ne hne).2 (hm k (by simp [hk]))
    rw [List.length_erase_of_mem hx] at this
    have hp := List.length_pos_of_mem hx
    rw [List.length_cons]
    omega

theorem total_le {n : Nat} : ∀ {l : List Nat}, (∀ x ∈ l, x ≤ n) → total l ≤ l.length * n
  | [], _ => by simp [total_nil]
  | x :: l, h => by
    have h1 := h x (by simp)
    have h2 := total_le (l := l) fun y hy => h y (by simp [hy])
    rw [total_cons, List.length_cons, Nat.add_mul]
    omega

/-- **C100** A remote stripe source holds at most one stripe for each stripe that was asked for and not yet reported: `ks` are any numbers among which
those stripes are. -/
theorem C100_source {bufs : Nat → Bytes} {es : List SrcEv} {s : Src} (h : Src.Run (Src.init bufs) es s) (hd : Disciplined es) {n : Nat}
    (hn : ∀ k d, SrcEv.fetched k (.ok d) ∈ es → d.length ≤ n) {ks : List Nat} (hk : ∀ k, reqs k es ≠ dones k es → k ∈ ks) :
    waiting s ≤ ks.length * n := by
  have hi := src_inv h hd
  have hmem : ∀ k ∈ s.results.map Prod.fst, k ∈ ks := by
    intro k hkr
    have hp := (hi.pending k).1 (by simp only [Src.flying, List.mem_append]; exact .inr hkr)
    refine hk k ?_
    have := hi.count k
    rw [if_neg hp] at this
    omega
  have hnd : (s.results.map Prod.fst).Nodup := (List.nodup_append.1 hi.nodup).2.1
  have hlen : s.results.length ≤ ks.length := by
    have := nodup_length_le hnd hmem
    rwa [List.length_map] at this
  refine Nat.le_trans (total_le (n := n) fun x hx => ?_) (by rw [List.length_map]; exact Nat.mul_le_mul_right _ hlen)
  obtain ⟨⟨k, r⟩, h1, rfl⟩ := List.mem_map.1 hx
  cases r with
  | error e => exact Nat.zero_le _
  | ok d => exact hn k d (results_fetched h k _ h1)

/-- Two stripes were asked for, one of them is there and waits. -/
example : ∃ es s, Src.Run (Src.init fun _ => zeros 4) es s ∧ Disciplined es ∧ (∀ k d, SrcEv.fetched k (.ok d) ∈ es → d.length ≤ 4) ∧
    (∀ k, reqs k es ≠ dones k es → k ∈ [7, 8]) ∧ waiting s = 4 := by
  have r := Src.Run.nil (Src.init fun _ => zeros 4)
  have r := r.snoc (.request _ 7 0)
  have r := r.snoc (.request _ 8 1)
  have r := r.snoc (.take _ 7 [8] rfl)
  have r := r.snoc (.finish _ 7 (.ok (zeros 4)) (by simp))
  simp only [Src.request, Src.init, Option.toList_some, List.map_cons, List.map_nil, List.nil_append, List.append_nil,
    List.cons_append] at r
  refine ⟨_, _, r, ?_, ?_, ?_, ?_⟩
  · intro pre post k b heq
    match pre, heq with
    | [], heq => rfl
    | [_], heq => simp at heq; obtain ⟨⟨rfl, -⟩, ⟨rfl, -⟩, -⟩ := heq; rfl
    | [_, _], heq => simp at heq
    | _ :: _ :: _ :: _, heq => have := congrArg List.length heq; simp at this
  · intro k d hm
    simp at hm
    rw [hm.2]
    decide
  · intro k hk
    by_cases h7 : k = 7
    · simp [h7]
    · by_cases h8 : k = 8
      · simp [h8]
      · refine absurd ?_ hk
        simp [reqs, dones, List.countP_cons, Ne.symm h7, Ne.symm h8, h7, h8]
  · rfl

/-! ## The stripe server -/

theorem single_val (s : Srv) (i : Nat) (cs : List Bytes) : (single s i cs).1 = s.handleSingle i cs := by
  unfold single Srv.handleSingle
  cases h : readExact 1 cs with
  | none => rfl
  | some p =>
    obtain ⟨opb, cs'⟩ := p
    simp only
    by_cases h1 : opb.headD 0 = HELLO_CMD
    · simp only [if_pos h1]
    · by_cases h2 : opb.headD 0 = METADATA_CMD
      · simp only [if_neg h1, if_pos h2]
      · by_cases h3 : opb.headD 0 = READ_STRIPE_CMD
        · simp only [if_neg h1, if_neg h2, if_pos h3]
          cases readExact 8 cs' with
          | none => rfl
          | some q => rfl
        · simp only [if_neg h1, if_neg h2, if_neg h3]

theorem single_total (s : Srv) (i : Nat) (cs : List Bytes) : total (single s i cs).2 ≤ 9 + max (metadataSize s.md) (stripeSize s.md) := by
  have hr : ∀ k, total (readBufs s k) ≤ stripeSize s.md := by
    intro k
    unfold readBufs
    (repeat' split) <;> simp [total_nil, total_cons]
  unfold single
  split
  · simp only [total_cons, total_nil]; omega
  · simp only
    (repeat' split) <;> simp only [total_cons, total_nil, total_append] <;> try omega
    rename_i idb _ _
    have := hr (fromLe idb)
    omega

/-- **C100** Whatever a client sends, a request makes its session of the stripe server hold at most nine bytes and the larger of the metadata
and a stripe, both of the server's own volume. What is counted is the session of `C32`. -/
theorem C100_server (s : Srv) (cs : List Bytes) (n i : Nat) :
    (∀ b ∈ sessionN s n i cs, total b ≤ 9 + max (metadataSize s.md) (stripeSize s.md)) ∧ (single s i cs).1 = s.handleSingle i cs := by
  refine ⟨?_, single_val s i cs⟩
  induction n generalizing i cs with
  | zero => intro b hb; cases hb
  | succ n ih =>
    intro b hb
    unfold sessionN at hb
    rcases List.mem_cons.1 hb with rfl | hb
    · exact single_total s i cs
    · split at hb
      · exact ih _ _ b hb
      · cases hb

/-- The example server, asked for stripe 3, then with an unknown command, then with half a request. -/
example : sessionN demoSrv 4 0 [readRequest 3 ++ [9, READ_STRIPE_CMD, 1]] = [[1, 8, 1024], [1], [1, 8]] := by decide +kernel

/-! ## Archives -/

/-- **C100** Nothing is decompressed that the index does not vouch for: opening an archive decompresses nothing, and an object with another hash than
the recorded one is refused whatever it would decompress to. -/
theorem C100_no_bomb (P : Archive.Prims) (z : Bytes → Option Bytes) :
    (∀ kek st, Archive.openArchive { P with zdec := z } kek st = Archive.openArchive P kek st) ∧
    (∀ src id len d h, P.sha d ≠ h → Archive.finishFetch { P with zdec := z } src id len d h = Archive.finishFetch P src id len d h) := by
  refine ⟨fun _ _ => rfl, fun src id len d h hne => ?_⟩
  unfold Archive.finishFetch
  rw [if_pos hne, if_pos (by exact hne)]

/-! ## RPC connections -/

theorem grow_ge (cap need : Nat) : need ≤ grow cap need ∧ cap ≤ grow cap need := by unfold grow; split <;> omega

theorem grow_le {cap need n : Nat} (h : cap ≤ max 8 (2 * n)) (hn : need ≤ n) : grow cap need ≤ max 8 (2 * n) := by
  unfold grow
  split
  · exact h
  · omega

theorem rawLines_pieces (c : Bytes) : (Rpc.rawLines c).flatten = c ∧ (∀ p ∈ Rpc.rawLines c, p ≠ [] ∧ (10 : UInt8) ∉ p.dropLast) := by
  induction c with
  | nil => exact ⟨rfl, by intro p hp; cases hp⟩
  | cons b bs ih =>
    unfold Rpc.rawLines
    split
    · rename_i h
      subst h
      refine ⟨by simp [ih.1], fun p hp => ?_⟩
      rcases List.mem_cons.1 hp with rfl | hp
      · exact ⟨by simp, by simp⟩
      · exact ih.2 p hp
    · rename_i h
      cases hr : Rpc.rawLines bs with
      | nil =>
        rw [hr] at ih
        have : bs = [] := ih.1.symm
        subst this
        exact ⟨rfl, fun p hp => by simp only [List.mem_singleton] at hp; subst hp; exact ⟨by simp, by simp⟩⟩
      | cons l ls =>
        rw [hr] at ih
        refine ⟨by have := ih.1; simp only [List.flatten_cons] at this ⊢; rw [List.cons_append, this], fun p hp => ?_⟩
        rcases List.mem_cons.1 hp with rfl | hp
        · obtain ⟨h1, h2⟩ := ih.2 l (by simp)
          refine ⟨by simp, ?_⟩
          cases l with
          | nil => exact absurd rfl h1
          | cons x l =>
            rw [List.dropLast_cons_of_ne_nil (by simp)]
            simp only [List.mem_cons, not_or]
            exact ⟨Ne.symm h, h2⟩
        · exact ih.2 p (List.mem_cons_of_mem _ hp)

/-- What holds of a connection that has received `b`. -/
structure RInv (r : Rd) (b : Bytes) : Prop where
  all : b = r.lines.flatten ++ r.line
  free : (10 : UInt8) ∉ r.line
  ends : ∀ l ∈ r.lines, (10 : UInt8) ∉ l.dropLast ∧ l.getLast? = some 10
  bound : ∀ n, LinesUpTo n b → r.cap ≤ max 8 (2 * n)
  room : r.line.length ≤ r.cap ∧ ∀ l ∈ r.lines, l.length ≤ r.cap

theorem piece_inv {r : Rd} {b p : Bytes} (h : RInv r b) (hp : p ≠ []) (hf : (10 : UInt8) ∉ p.dropLast) : RInv (r.piece p) (b ++ p) := by
  have hb : ∀ n, LinesUpTo n (b ++ p) → grow r.cap (r.line ++ p).length ≤ max 8 (2 * n) := by
    intro n hn
    refine grow_le (h.bound n fun pre mid post e hm => hn pre mid (post ++ p) (by rw [e]; simp) hm) (hn r.lines.flatten (r.line ++ p) [] (by rw [h.all]; simp) ?_)
    rw [List.dropLast_append_of_ne_nil hp]
    simp only [List.mem_append, not_or]
    exact ⟨h.free, hf⟩
  have hg := grow_ge r.cap (r.line ++ p).length
  unfold Rd.piece
  split
  · rename_i hl
    refine ⟨by rw [h.all]; simp, by simp, fun l hm => ?_, hb, by simp, fun l hm => ?_⟩
    · rcases List.mem_append.1 hm with hm | hm
      · exact h.ends l hm
      · simp only [List.mem_singleton] at hm
        subst hm
        rw [List.dropLast_append_of_ne_nil hp]
        refine ⟨by simp only [List.mem_append, not_or]; exact ⟨h.free, hf⟩, ?_⟩
        rw [List.getLast?_append, hl]
        rfl
    · rcases List.mem_append.1 hm with hm | hm
      · exact Nat.le_trans (h.room.2 l hm) hg.2
      · simp only [List.mem_singleton] at hm
        subst hm
        exact hg.1
  · rename_i hl
    refine ⟨by rw [h.all]; simp, ?_, h.ends, hb, hg.1, fun l hm => Nat.le_trans (h.room.2 l hm) hg.2⟩
    simp only [List.mem_append, not_or]
    refine ⟨h.free, fun hm => ?_⟩
    have e := List.dropLast_concat_getLast hp
    rw [← e] at hm
    rcases List.mem_append.1 hm with hm | hm
    · exact hf hm
    · simp only [List.mem_singleton] at hm
      exact hl (by rw [List.getLast?_eq_some_getLast hp, hm])

theorem pieces_inv {r : Rd} {b : Bytes} (h : RInv r b) : ∀ {ps : List Bytes}, (∀ p ∈ ps, p ≠ [] ∧ (10 : UInt8) ∉ p.dropLast) →
    RInv (ps.foldl Rd.piece r) (b ++ ps.flatten) := by
  intro ps hps
  induction ps generalizing r b with
  | nil => simpa using h
  | cons p ps ih =>
    have h1 := piece_inv h (hps p (by simp)).1 (hps p (by simp)).2
    have := ih h1 fun q hq => hps q (by simp [hq])
    simpa using this

theorem run_inv (cs : List Bytes) : RInv (Rd.run cs) cs.flatten := by
  have go : ∀ (cs : List Bytes) {r : Rd} {b : Bytes}, RInv r b → RInv (cs.foldl Rd.chunk r) (b ++ cs.flatten) := by
    intro cs
    induction cs with
    | nil => intro r b h; simpa using h
    | cons c cs ih =>
      intro r b h
      obtain ⟨e, hp⟩ := rawLines_pieces c
      have h1 := pieces_inv h hp
      rw [e] at h1
      have := ih h1
      rw [List.append_assoc] at this
      exact this
  have h0 : RInv Rd.new [] := ⟨rfl, by simp [Rd.new], by simp [Rd.new], fun n _ => by simp [Rd.new], by simp [Rd.new], by simp [Rd.new]⟩
  exact go cs h0

theorem rawLines_joined {ls : List Bytes} {line : Bytes} (he : ∀ l ∈ ls, (10 : UInt8) ∉ l.dropLast ∧ l.getLast? = some 10) (hf : (10 : UInt8) ∉ line) :
    Rpc.rawLines (ls.flatten ++ line) = ls ++ (if line = [] then [] else [line]) := by
  induction ls with
  | nil =>
    simp only [List.flatten_nil, List.nil_append]
    split
    · rename_i e; rw [e]; rfl
    · rename_i e; rw [Rpc.rawLines_last hf e]
  | cons l ls ih =>
    obtain ⟨h1, h2⟩ := he l (by simp)
    have hl : l ≠ [] := by rintro rfl; simp at h2
    have e : l = l.dropLast ++ [10] := by
      have := List.dropLast_concat_getLast hl
      rw [List.getLast?_eq_some_getLast hl, Option.some.injEq] at h2
      rw [h2] at this
      exact this.symm
    have : (l :: ls).flatten ++ line = l.dropLast ++ 10 :: (ls.flatten ++ line) := by
      rw [List.flatten_cons]
      conv => lhs; rw [e]
      simp
    rw [this, Rpc.rawLines_line h1, ih fun l' h' => he l' (by simp [h']), ← e]
    rfl

/-- **C100** The lines that a connection gets, in whatever pieces they arrive, are those of `C55`. -/
theorem C100_rpc_lines (cs : List Bytes) :
    (Rd.run cs).lines ++ (if (Rd.run cs).line = [] then [] else [(Rd.run cs).line]) = Rpc.rawLines cs.flatten := by
  have h := run_inv cs
  rw [h.all, rawLines_joined h.ends h.free]

/-- **C100** A connection to the RPC socket that has sent no line of more than `n` bytes makes the process hold at most 8 KiB and `2 * n` bytes (or eight)
in its buffers. Partial: `n` is not bounded. -/
theorem C100_rpc_partial (cs : List Bytes) (n : Nat) (h : LinesUpTo n cs.flatten) : (Rd.run cs).held ≤ 8192 + max 8 (2 * n) := by
  have := (run_inv cs).bound n h
  unfold Rd.held
  omega

example : LinesUpTo 3 ([97, 98, 10, 97] : Bytes) ∧ (Rd.run [[97], [98, 10, 97]]).held = 8192 + 8 := by
  refine ⟨fun pre mid post h hm => ?_, by decide⟩
  match pre, mid, h with
  | [], [], _ => simp
  | [], [_], _ => simp
  | [], [_, _], _ => simp
  | [], [_, _, _], _ => simp
  | [], _ :: _ :: c :: d :: t, h => simp at h; obtain ⟨-, -, rfl, -⟩ := h; simp at hm
  | _ :: p, m, h =>
    have := congrArg List.length h
    simp at this
    omega

/-- **C100** (false) There is no bound: a client that never ends its line makes the process hold as much as it sends, and what a long line took is held after
the line was answered, for as long as the connection lasts. -/
theorem C100_false_rpc (n : Nat) :
    (∃ cs : List Bytes, (∀ c ∈ cs, c.length ≤ 8192) ∧ (10 : UInt8) ∉ cs.flatten ∧ (Rd.run cs).lines = [] ∧ n ≤ (Rd.run cs).held) ∧
    ∃ cs : List Bytes, (∀ c ∈ cs, c.length ≤ 8192) ∧ (Rd.run cs).line = [] ∧ n ≤ (Rd.run cs).held := by
  have hflat : (List.replicate n ([32] : Bytes)).flatten = List.replicate n 32 := by
    induction n with
    | zero => rfl
    | succ n ih => rw [List.replicate_succ, List.flatten_cons, ih]; rfl
  constructor
  · refine ⟨List.replicate n [32], fun c hc => ?_, ?_, ?_, ?_⟩
    · rw [List.eq_of_mem_replicate hc]; decide
    · rw [hflat]
      intro hm
      have := List.eq_of_mem_replicate hm
      simp at this
    · have h := run_inv (List.replicate n [32])
      cases hl : (Rd.run (List.replicate n [32])).lines with
      | nil => rfl
      | cons l ls =>
        have h2 := (h.ends l (by rw [hl]; simp)).2
        have h3 : (10 : UInt8) ∈ (List.replicate n ([32] : Bytes)).flatten := by
          rw [h.all, hl]
          simp only [List.flatten_cons, List.mem_append]
          exact .inl (.inl (List.mem_of_getLast? h2))
        rw [hflat] at h3
        have := List.eq_of_mem_replicate h3
        simp at this
    · have h := run_inv (List.replicate n [32])
      have hlines := C100_rpc_lines (List.replicate n [32])
      rw [hflat] at hlines
      cases n with
      | zero => exact Nat.zero_le _
      | succ n =>
        have hno : (10 : UInt8) ∉ List.replicate (n + 1) (32 : UInt8) := fun hm => by have := List.eq_of_mem_replicate hm; simp at this
        rw [Rpc.rawLines_last hno (by simp)] at hlines
        have hm : List.replicate (n + 1) (32 : UInt8) ∈ (Rd.run (List.replicate (n + 1) [32])).lines ++
            (if (Rd.run (List.replicate (n + 1) [32])).line = [] then [] else [(Rd.run (List.replicate (n + 1) [32])).line]) := by
          rw [hlines]; simp
        have hlen : (List.replicate (n + 1) (32 : UInt8)).length ≤ (Rd.run (List.replicate (n + 1) [32])).cap := by
          rcases List.mem_append.1 hm with hm | hm
          · exact h.room.2 _ hm
          · split at hm
            · cases hm
            · simp only [List.mem_singleton] at hm
              rw [hm]
              exact h.room.1
        rw [List.length_replicate] at hlen
        unfold Rd.held
        omega
  · refine ⟨List.replicate n [32] ++ [[10]], fun c hc => ?_, ?_, ?_⟩
    · rcases List.mem_append.1 hc with hc | hc
      · rw [List.eq_of_mem_replicate hc]; decide
      · simp only [List.mem_singleton] at hc; rw [hc]; decide
    · unfold Rd.run
      rw [List.foldl_append]
      rfl
    · have h := run_inv (List.replicate n [32] ++ [[10]])
      have hlines := C100_rpc_lines (List.replicate n [32] ++ [[10]])
      rw [List.flatten_append, hflat] at hlines
      have hno : (10 : UInt8) ∉ List.replicate n (32 : UInt8) := fun hm => by have := List.eq_of_mem_replicate hm; simp at this
      have e : List.replicate n (32 : UInt8) ++ [[10]].flatten = List.replicate n 32 ++ 10 :: [] := rfl
      rw [e, Rpc.rawLines_line hno] at hlines
      have hm : List.replicate n (32 : UInt8) ++ [10] ∈ (Rd.run (List.replicate n [32] ++ [[10]])).lines ++
          (if (Rd.run (List.replicate n [32] ++ [[10]])).line = [] then [] else [(Rd.run (List.replicate n [32] ++ [[10]])).line]) := by
        rw [hlines]; simp
      have hlen : (List.replicate n (32 : UInt8) ++ [10]).length ≤ (Rd.run (List.replicate n [32] ++ [[10]])).cap := by
        rcases List.mem_append.1 hm with hm | hm
        · exact h.room.2 _ hm
        · split at hm
          · cases hm
          · simp only [List.mem_singleton] at hm
            rw [hm]
            exact h.room.1
      rw [List.length_append, List.length_replicate] at hlen
      unfold Rd.held
      omega

end Verif.Hold
