import Verif.Props.Assemble
import Verif.Props.Metadata
import Verif.Proof.ArchiveFormat

/-! # C20: one key for two files

C20 is about one file. The volume's data file and its metadata file are encrypted with the same keys, and sectors are counted from zero in
both. -/

namespace Verif.Assemble
open Verif Verif.Config Verif.Metadata

/-- The keys are determined by the configuration. -/
theorem keysOf_unique {c : Config} {a b : Option Crypt.Keys} (ha : KeysOf c a) (hb : KeysOf c b) : a = b := by
  unfold KeysOf at ha hb
  cases hc : c.encryption with
  | none => rw [hc] at ha hb; rw [ha, hb]
  | some n =>
    rw [hc] at ha hb
    obtain ⟨k, h1, _, rfl⟩ := ha
    obtain ⟨k', h1', _, rfl⟩ := hb
    rw [h1] at h1'
    cases h1'
    rfl

/-- **C20**, between the files of a volume: what the disk's layer makes of metadata that a guest writes to the first sectors of its disk is
what the metadata's layer makes of these metadata. Someone who can copy sectors from the data file to the metadata file, without knowing
the key, makes the guest's bytes the volume's metadata. -/
theorem C20_across_files {p : Crypt.Xts} (hp : p.Lawful) {t : Text} {c : Config} {l : Log} {x : Parts} (h : Run (backend t c) l (.ok x)) {d md : Dev}
    {m : Meta} {k : Crypt.Keys} (hd : x.disk = some d) (hm : x.md = some (md, m)) (hk : d.keys = some k) {m' : Meta} (hs : Saveable m') :
    ∃ buf ct k' b, writeToBuf m' (zeros (metadataSize m')) = .ok buf ∧ Crypt.encrypt p k buf 0 (buf.length / 512) = .ok ct ∧
      md.keys = some k' ∧ Crypt.decrypt p k' ct 0 (ct.length / 512) = .ok b ∧ fromBytes b = .ok m' := by
  have hc := C79_configured (p := .backend) h
  have hkk : md.keys = some k := by
    rw [← hk]
    exact keysOf_unique (hc.md md m hm).2 (hc.disk d hd).2
  have hmul : metadataSize m' % 512 = 0 := by
    have : metadataSize m' = 512 + headerSectorCount m' * 512 := rfl
    omega
  obtain ⟨buf, h1, h2, _, h4⟩ := C01_save_load m' (zeros (metadataSize m')) hs (by rw [zeros_length]; exact Nat.le_refl _)
    (by rw [zeros_length]; exact hmul)
  have hl : buf.length % 512 = 0 := by rw [h2, zeros_length]; exact hmul
  obtain ⟨ct, h5, _⟩ := Crypt.encrypt_ok (p := p) (k := k) (buf := buf) (start := 0) (count := buf.length / 512) hp (Nat.div_mul_le_self _ _)
  obtain ⟨_, h6⟩ := Archive.decrypt_encrypt hp hl h5
  exact ⟨buf, ct, k, buf, h1, h5, hkk, h6, h4⟩

/-- The hypotheses are met by the backend of the example configuration, with its key of sixty-four bytes. -/
example : okWith (against (demoOut (demoMeta HAS_SOURCE 10) fun _ => false) (backend demoText (confOf rawRoot))).2 (fun x =>
    (match x.disk with | some d => d.keys.isSome | none => false) && x.md.isSome) = true := by
  decide +kernel

end Verif.Assemble
