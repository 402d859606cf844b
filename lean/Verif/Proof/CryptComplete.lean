import Verif.Proof.Recode

/-! The converse of `crypt_refines`: whatever a plain disk of 512-byte sectors can show, the encrypting channel over a plain disk can. -/

set_option maxRecDepth 8000

namespace Verif.Stack
open Verif Verif.Disk Verif.Crypt

variable {p : Xts} {k : Keys}

/-- A sector of 512 bytes as such. -/
def sec (b : Bytes) : Sector := if h : b.length = 512 then ⟨b, h⟩ else ⟨zeros 512, zeros_length 512⟩

theorem sec_val {b : Bytes} (h : b.length = 512) : (sec b).1 = b := by rw [sec, dif_pos h]

/-- The encrypted sector. -/
def cipher (hp : p.Lawful) (k : Keys) (x : Nat) (b : Bytes) : Sector := encS hp k x (sec b)

theorem plain_cipher (hp : p.Lawful) (x : Nat) {b : Bytes} (h : b.length = 512) : plain hp k x (cipher hp k x b) = b := by
  rw [plain, cipher, (inverse hp k).1, sec_val h]

/-- All sectors have 512 bytes. -/
structure Sized (u : Disk Bytes) : Prop where
  vol : ∀ x, (u.vol x).length = 512
  pers : ∀ x w, u.pers x w → w.length = 512
  read : ∀ o off cnt got x b, u.ops o = some (.read off cnt got) → got x = some b → b.length = 512
  write : ∀ o off cnt data done x, u.ops o = some (.write off cnt data done) → covers off cnt x → (data x).length = 512

/-- The writes of a history carry 512 bytes per sector. -/
def SizedEvs (es : List (Ev Bytes)) : Prop :=
  ∀ q id off cnt data, Ev.issue q id (.write off cnt data) ∈ es → ∀ x, covers off cnt x → (data x).length = 512

theorem Sized.fresh {v : Nat → Bytes} (h : ∀ x, (v x).length = 512) : Sized (Dev.fresh v) :=
  ⟨h, fun x w hw => by rw [show w = v x from hw]; exact h x, fun _ _ _ _ _ _ h => (by cases h), fun _ _ _ _ _ _ h => (by cases h)⟩

theorem Sized.upd {u : Disk Bytes} (h : Sized u) {vol : Nat → Bytes} {pers : Nat → Bytes → Prop} (hv : ∀ x, (vol x).length = 512)
    (hpers : ∀ x w, pers x w → w.length = 512) {o : Nat × Nat} {op : Option (Op Bytes)}
    (hr : ∀ off cnt got x b, op = some (.read off cnt got) → got x = some b → b.length = 512)
    (hw : ∀ off cnt data done x, op = some (.write off cnt data done) → covers off cnt x → (data x).length = 512) :
    Sized { vol, pers, ops := upd u.ops o op } := by
  refine ⟨hv, hpers, fun o' off cnt got x b h1 => ?_, fun o' off cnt data done x h1 => ?_⟩
  · by_cases e : o' = o
    · subst e; simp only [upd_same] at h1; exact hr _ _ _ _ _ h1
    · simp only [upd_ne _ _ e] at h1; exact h.read _ _ _ _ _ _ h1
  · by_cases e : o' = o
    · subst e; simp only [upd_same] at h1; exact hw _ _ _ _ _ h1
    · simp only [upd_ne _ _ e] at h1; exact h.write _ _ _ _ _ _ h1

theorem Sized.issueWrite {u : Disk Bytes} (h : Sized u) (o : Nat × Nat) (off cnt : Nat) {data : Nat → Bytes}
    (hd : ∀ x, covers off cnt x → (data x).length = 512) : Sized (Dev.issueWrite u o off cnt data) := by
  have h1 : Sized { u with ops := fun o' => (u.ops o').map (Op.addSnap off cnt data) } := by
    refine ⟨h.vol, h.pers, fun o' a b got x c g1 => ?_, fun o' a b dd done x g1 => ?_⟩
    · simp only [Option.map_eq_some_iff, addSnap_read] at g1
      obtain ⟨_, g1, rfl⟩ := g1
      exact h.read _ _ _ _ _ _ g1
    · rcases e : u.ops o' with _ | (_ | _ | _) <;> simp [e, Op.addSnap] at g1
      obtain ⟨rfl, rfl, rfl, rfl⟩ := g1
      exact h.write _ _ _ _ _ _ e
  exact h1.upd h.vol (fun x w hw => hw.elim (h.pers x w) fun ⟨g1, g2⟩ => by rw [g2]; exact hd x g1) (fun _ _ _ _ _ e => by cases e)
    fun _ _ _ _ x e hx => by cases e; exact hd x hx

theorem Sized.exec {u : Disk Bytes} (h : Sized u) (o : Nat × Nat) (x : Nat) : Sized (Dev.exec u o x) := by
  unfold Dev.exec
  split
  · rename_i off cnt got ho
    split
    · refine h.upd h.vol h.pers (fun a b got' y c e hy => ?_) fun _ _ _ _ _ e => by cases e
      cases e
      by_cases e : y = x
      · subst e; rw [upd_same] at hy; cases hy; exact h.vol y
      · rw [upd_ne _ _ e] at hy; exact h.read _ _ _ _ _ _ ho hy
    · exact h
  · rename_i off cnt data done ho
    split
    · rename_i hc
      refine h.upd (fun y => ?_) h.pers (fun _ _ _ _ _ e => by cases e) fun _ _ _ _ y e hy => ?_
      · by_cases e : y = x
        · subst e; rw [upd_same]; exact h.write _ _ _ _ _ _ ho hc
        · rw [upd_ne _ _ e]; exact h.vol y
      · cases e; exact h.write _ _ _ _ _ _ ho hy
    · exact h
  · exact h

/-- A buffer with given sectors. -/
theorem buffer_of {off cnt : Nat} {data : Nat → Bytes} (hd : ∀ x, covers off cnt x → (data x).length = 512) :
    ∃ buf : Bytes, buf.length = cnt * 512 ∧ (∀ j, j < cnt → sectorAt buf j = sec (data (off + j))) ∧
      ∀ j, j < cnt → data (off + j) = slice buf (j * 512) 512 := by
  refine ⟨readBuf ((List.range cnt).map fun j => some (sec (data (off + j)))), by rw [readBuf_length]; simp, fun j hj => ?_, fun j hj => ?_⟩
  · exact readBuf_sectorAt _ j _ (by simp [hj])
  · have h1 := readBuf_sectorAt ((List.range cnt).map fun j => some (sec (data (off + j)))) j (sec (data (off + j))) (by simp [hj])
    have h2 := congrArg Subtype.val h1
    rw [sec_val (hd _ ⟨by omega, by omega⟩)] at h2
    rw [← h2, sectorAt, dif_pos]
    rw [readBuf_length, List.length_map, List.length_range]
    exact Nat.mul_le_mul_right 512 (by omega)

theorem crypt_complete (hp : p.Lawful) {v : Nat → Bytes} (hv : ∀ x, (v x).length = 512) {es : List (Ev Bytes)} {u0 u : Disk Bytes}
    (h : Disk.Run u0 es u) (h0 : u0 = Dev.fresh v) (hs : SizedEvs es) :
    ∃ ws rd d, CryptRun p k es ws rd ∧ Disk.Run (Dev.fresh fun x => cipher hp k x (v x)) ws d ∧ Code (cipher hp k) u d ∧ Noted rd d ∧ Sized u := by
  induction h with
  | nil => subst h0; exact ⟨[], _, _, .nil, .nil _, Code.fresh v, fun o a b => by simp [Dev.fresh], Sized.fresh hv⟩
  | snoc hr hst ih =>
    rename_i u1 u2 es es'
    obtain ⟨ws, rd, d, g1, g2, g3, g4, g5⟩ := ih fun q id off cnt data hm => hs q id off cnt data (List.mem_append_left _ hm)
    have hs' : SizedEvs es' := fun q id off cnt data hm => hs q id off cnt data (List.mem_append_right _ hm)
    clear hs
    cases hst with
    | issue c id r hn =>
      have hn' := (g3.ops (c, id)).none_iff.1 hn
      have hnone : rd (c, id) = none := by
        rcases e : rd (c, id) with _ | ⟨a, b⟩
        · rfl
        · obtain ⟨g, hg⟩ := (g4 _ a b).1 e
          rw [hn'] at hg; cases hg
      cases r with
      | read off cnt =>
        refine ⟨_, _, _, g1.step (.read rd c id off cnt), g2.snoc (.issue _ c id (.read off cnt) hn'), g3.issueRead _ _ _, ?_, ?_⟩
        · refine g4.upd (c, id) (fun o' hne a b => ?_) fun a b => ?_
          · simp only [Disk.issue, Dev.issueRead, upd_ne _ _ hne]
          · simp only [Disk.issue, Dev.issueRead, upd_same, Option.some.injEq, Prod.mk.injEq, Op.read.injEq]
            exact ⟨fun ⟨h1, h2⟩ => ⟨_, h1, h2, rfl⟩, fun ⟨_, h1, h2, _⟩ => ⟨h1, h2⟩⟩
        · exact g5.upd g5.vol g5.pers (fun _ _ _ _ _ e hx => by cases e; cases hx) fun _ _ _ _ _ e => by cases e
      | write off cnt data =>
        have hd := hs' c id off cnt data (by simp)
        obtain ⟨buf, b1, b2, b3⟩ := buffer_of hd
        obtain ⟨buf', e1, e2, e3, -⟩ := encrypt_ok (k := k) (start := off) hp (Nat.le_of_eq b1.symm)
        have hdata : ∀ x, covers off cnt x → bufData buf' off cnt x = cipher hp k x (data x) := fun x hx => by
          have hj : x - off < cnt := by obtain ⟨h1, h2⟩ := hx; omega
          rw [bufData, if_pos hx, e3 _ hj, b2 _ hj, show off + (x - off) = x by obtain ⟨h1, h2⟩ := hx; omega]
          rfl
        refine ⟨_, _, _, g1.step (.write rd c id off cnt data buf buf' b3 e1), g2.snoc (.issue _ c id (.write off cnt _) hn'),
          g3.issueWrite _ _ _ hdata, ?_, g5.issueWrite _ _ _ hd⟩
        rw [← upd_self rd (c, id) hnone]
        refine g4.upd (c, id) (fun o' hne a b => ?_) fun a b => ?_
        · simp only [Disk.issue]
          rw [ops_issueWrite_ne _ _ _ _ hne]
          simp only [Option.map_eq_some_iff, addSnap_read]
          exact ⟨fun ⟨g, _, hg, e⟩ => ⟨g, by rw [hg, e]⟩, fun ⟨g, hg⟩ => ⟨g, _, hg, rfl⟩⟩
        · simp [Disk.issue, Dev.issueWrite, upd_same]
      | flush =>
        refine ⟨_, _, _, g1.step (.flush rd c id), g2.snoc (.issue _ c id .flush hn'), g3.issueFlush _, ?_, ?_⟩
        · rw [← upd_self rd (c, id) hnone]
          refine g4.upd (c, id) (fun o' hne a b => ?_) fun a b => ?_
          · simp only [Disk.issue, Dev.issueFlush, upd_ne _ _ hne]
          · simp [Disk.issue, Dev.issueFlush, upd_same]
        · exact g5.upd g5.vol g5.pers (fun _ _ _ _ _ e => by cases e) fun _ _ _ _ _ e => by cases e
    | exec o x =>
      have r := g2.snoc (.exec _ o x)
      rw [List.append_nil] at r
      rw [List.append_nil]
      exact ⟨ws, rd, _, g1, r, g3.exec o x, noted_exec g4 o x, g5.exec o x⟩
    | respond c id ok hm =>
      have hm' := g3.mayComplete hm
      have hsz : Sized (Dev.complete u1 (c, id) ok) :=
        g5.upd g5.vol (fun x w hw => g5.pers x w hw.1) (fun _ _ _ _ _ e => by cases e) fun _ _ _ _ _ e => by cases e
      have hnt : Noted (upd rd (c, id) none) (Dev.complete d (c, id) ok) := by
        refine g4.upd (c, id) (fun o' hne a b => ?_) fun a b => ?_
        · simp only [Dev.complete, upd_ne _ _ hne]
        · simp [Dev.complete]
      have hdone : (ok = true → rd (c, id) = none) → Dev.result u1 (c, id) ok = [] →
          ∃ ws rd d, CryptRun p k (es ++ [Ev.resp c id ok (Dev.result u1 (c, id) ok)]) ws rd ∧
            Disk.Run (Dev.fresh fun x => cipher hp k x (v x)) ws d ∧ Code (cipher hp k) (Dev.complete u1 (c, id) ok) d ∧ Noted rd d ∧
            Sized (Dev.complete u1 (c, id) ok) := by
        intro e1 e2
        rw [e2]
        exact ⟨_, _, _, g1.step (.done rd c id ok _ e1), g2.snoc (.respond _ c id ok hm'), g3.complete _ _, hnt, hsz⟩
      have ho := g3.ops (c, id)
      generalize hu1 : u1.ops (c, id) = x at ho
      generalize hd1 : d.ops (c, id) = y at ho
      have hrdn : (∀ off cnt got, y ≠ some (.read off cnt got)) → rd (c, id) = none := by
        intro hy
        rcases e : rd (c, id) with _ | ⟨a, b⟩
        · rfl
        · obtain ⟨g, hg⟩ := (g4 _ a b).1 e
          rw [hd1] at hg; exact absurd hg (hy a b g)
      cases ho with
      | none => exact hdone (fun _ => hrdn (by simp)) (by simp [Dev.result, hu1])
      | write => exact hdone (fun _ => hrdn (by simp)) (by simp [Dev.result, hu1])
      | flush => exact hdone (fun _ => hrdn (by simp)) (by simp [Dev.result, hu1])
      | read off cnt got got' hgg =>
        cases ok with
        | false => exact hdone (fun e => by cases e) (by simp [Dev.result, hu1])
        | true =>
          have hrd := (g4 (c, id) off cnt).2 ⟨got', hd1⟩
          have hres : Dev.result d (c, id) true = (List.range cnt).map fun i => got' (off + i) := by simp [Dev.result, hd1]
          have hlen : (readBuf (Dev.result d (c, id) true)).length = cnt * 512 := by rw [readBuf_length, hres]; simp
          obtain ⟨out, h1, h2, h3, -⟩ := decrypt_ok (k := k) (start := off) hp (Nat.le_of_eq hlen.symm)
          have hur : Dev.result u1 (c, id) true = (List.range cnt).map fun j => some (slice out (j * 512) 512) := by
            simp only [Dev.result, hu1, if_true]
            apply List.map_congr_left
            intro j hj
            have hj := List.mem_range.1 hj
            obtain ⟨op, o1, o2⟩ := hm
            rw [hu1, Option.some.injEq] at o1
            subst o1
            obtain ⟨s, hs⟩ := Option.ne_none_iff_exists'.1 (o2 rfl (off + j) ⟨by omega, by omega⟩)
            rw [hs, decrypt_slices hp (by rw [hres]; simp) h1 hj (s := cipher hp k (off + j) s) (by rw [hres]; simp [hj, hgg, hs]),
              plain_cipher hp _ (g5.read _ _ _ _ _ _ hu1 hs)]
          have st := CryptStep.readDone (p := p) (k := k) rd c id off cnt (Dev.result d (c, id) true) out hrd h1
          rw [← hur] at st
          exact ⟨_, _, _, g1.step st, g2.snoc (.respond _ c id true hm'), g3.complete _ _, hnt, hsz⟩
    | crash w hw =>
      exact ⟨_, _, _, g1.step (.crash rd), g2.snoc (.crash _ _ (g3.survives hw)), Code.fresh w, fun o a b => by simp [Dev.fresh],
        Sized.fresh fun x => g5.pers x _ (hw x)⟩

end Verif.Stack
