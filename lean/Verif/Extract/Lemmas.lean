import Verif.Extract.Model
import Verif.Kaldi.ShapesProps
import Verif.Copy.H5Copy
import Verif.Copy.Parts
import Verif.NpLemmas

/-! Lemmas for C168. -/

namespace Hyp.Extract
open Hyp.Text Hyp.Kaldi Hyp.Spec Hyp.Copy

/-! ### reading one record -/

theorem arkLoop_limit (pk : Peek) (D : Decoder) (tr : Nd → Nd) (off n fuel : Nat) :
    ∀ (k : Nat) (b : Bool) (s : Bytes) (p), arkLoop pk D tr off n fuel (some k) b s = some p → p.1.length ≤ k := by
  induction fuel with
  | zero => intro k b s p h; simp [arkLoop] at h
  | succ fuel ih =>
    intro k b s p h
    unfold arkLoop at h
    split at h
    · obtain rfl := Option.some.inj h; simp
    · rename_i hk
      have hk : 0 < k := by
        rcases Nat.eq_zero_or_pos k with h0 | h0
        · exact absurd (by rw [h0]) hk
        · exact h0
      split at h
      · simp at h
      · split at h
        · obtain rfl := Option.some.inj h; simp
        · split at h
          · simp at h
          · split at h
            · simp at h
            · rename_i heq
              have := ih _ _ _ _ heq
              obtain rfl := Option.some.inj h
              simp only [List.length_cons] at this ⊢
              omega

theorem read_one_le {e : Env} {d : Disk} {r : Rd} {p : List (Str × Nd) × Rd} (h : r.read e d 1 = some p) : p.1.length ≤ 1 := by
  cases r with
  | arkFile r =>
    obtain ⟨q, hq, rfl⟩ := Option.map_eq_some_iff.1 h
    unfold ArkReader.read at hq
    split at hq
    · simp at hq
    · rename_i heq
      have := arkLoop_limit _ _ _ _ _ _ 1 _ _ _ heq
      obtain rfl := Option.some.inj hq
      exact this
  | arkScp r =>
    obtain ⟨q, hq, rfl⟩ := Option.map_eq_some_iff.1 h
    unfold ScpReader.read at hq
    rw [if_neg (by decide)] at hq
    unfold scpLoop at hq
    split at hq
    · obtain rfl := Option.some.inj hq; simp
    · split at hq
      · simp at hq
      · split at hq
        · simp at hq
        · rename_i heq
          obtain ⟨rfl, rfl⟩ := Prod.mk.inj (Option.some.inj heq)
          obtain rfl := Option.some.inj hq
          simp
  | h5File r =>
    obtain ⟨q, hq, rfl⟩ := Option.map_eq_some_iff.1 h
    unfold H5.SeqFile.read at hq
    rw [if_neg (by decide)] at hq
    unfold H5.SeqFile.loop at hq
    split at hq
    · obtain rfl := Option.some.inj hq; simp
    · obtain ⟨x, _, hq⟩ := Option.bind_eq_some_iff.1 hq
      obtain ⟨y, hy, hq⟩ := Option.bind_eq_some_iff.1 hq
      obtain rfl := Option.some.inj hy
      obtain rfl := Option.some.inj hq
      simp
  | h5Scp r =>
    obtain ⟨q, hq, rfl⟩ := Option.map_eq_some_iff.1 h
    unfold H5.SeqScript.read at hq
    rw [if_neg (by decide)] at hq
    unfold H5.SeqScript.loop at hq
    split at hq
    · obtain rfl := Option.some.inj hq; simp
    · obtain ⟨x, _, hq⟩ := Option.bind_eq_some_iff.1 hq
      obtain ⟨y, hy, hq⟩ := Option.bind_eq_some_iff.1 hq
      obtain rfl := Option.some.inj hy
      obtain rfl := Option.some.inj hq
      simp

theorem read_one {e : Env} {d : Disk} {x : Str × Nd} {items : List (Str × Nd)} {r : Rd} (h : Pending e d (x :: items) r) :
    ∃ r', r.read e d 1 = some ([x], r') ∧ Pending e d items r' := by
  obtain ⟨xs, ys, r', h1, h2, h3, h4⟩ := h.read 1
  have hl := read_one_le h1
  rcases xs with _ | ⟨y, xs⟩
  · exact absurd (h4 rfl) (by simp)
  · simp only [List.length_cons] at hl
    obtain rfl : xs = [] := List.length_eq_zero_iff.1 (by omega)
    rw [List.singleton_append, List.cons.injEq] at h2
    obtain ⟨rfl, rfl⟩ := h2
    exact ⟨r', h1, h3⟩

/-- the loop on what is left to read: the rows of all records, or an exception if the network raises for one. -/
theorem rowsLoop_pending {e : Env} {d : Disk} (f : Nd → Option Nd) (items : List (Str × Nd)) :
    ∀ (r : Rd), Pending e d items r →
      rowsLoop e d f items.length r = items.mapM (fun x : Str × Nd => (f x.2).map (fun y => (x.1, y))) := by
  induction items with
  | nil => intro r _; rfl
  | cons x items ih =>
    intro r h
    obtain ⟨r', h1, h2⟩ := read_one h
    rw [List.length_cons, rowsLoop, oneRow, h1, List.mapM_cons]
    simp only [Option.bind_some, List.head?_cons, Option.bind_eq_bind]
    rcases f x.2 with _ | y
    · rfl
    · simp only [Option.map_some, Option.bind_some, ih r' h2]
      rcases items.mapM (fun x : Str × Nd => (f x.2).map (fun y => (x.1, y))) with _ | l <;> rfl

/-! ### counting the records -/

/-- the archive of a reader of an ark file can be walked through by shapes. -/
def Sound (e : Env) : Rd → Prop
  | .arkFile r => ∃ items, EncS e.D items r.content
  | _ => True

theorem Sound.clean {e : Env} {r : Rd} (h : Sound e r) : Clean e r := by
  cases r with
  | arkFile r => obtain ⟨i, h⟩ := h; exact ⟨i, h.enc⟩
  | arkScp r => trivial
  | h5File r => trivial
  | h5Scp r => trivial

theorem scpShapeLoop_len {pk : Peek} {D : Decoder} {fs : Kaldi.Files} (k : Nat) :
    ∀ (r : ScpReader) (p), scpShapeLoop pk D fs k r = some p → k ≤ r.scp.key.length - r.cur →
      p.1.length = k ∧ p.2.scp = r.scp := by
  induction k with
  | zero => intro r p h _; obtain rfl := Option.some.inj h; exact ⟨rfl, rfl⟩
  | succ k ih =>
    intro r p h hk
    unfold scpShapeLoop at h
    rw [if_neg (by omega)] at h
    split at h
    · simp at h
    · rename_i x r1 h1
      split at h
      · simp at h
      · rename_i xs r2 h2
        obtain rfl := Option.some.inj h
        unfold ScpReader.shapeOne at h1
        simp only [Option.bind_eq_bind, Option.bind_eq_some_iff] at h1
        obtain ⟨_, _, _, _, _, _, _, _, _, _, h1⟩ := h1
        simp only [Option.pure_def, Option.some.injEq, Prod.mk.injEq] at h1
        obtain ⟨_, rfl⟩ := h1
        obtain ⟨h3, h4⟩ := ih _ _ h2 (by simp only; omega)
        exact ⟨by simp only [List.length_cons] at *; omega, h4⟩

theorem fileShapeLoop_len (k : Nat) : ∀ (r : H5.SeqFile) (p), H5.SeqFile.shapeLoop k r = some p → k ≤ r.keys.length - r.cur →
      p.1.length = k ∧ p.2.keys = r.keys ∧ p.2.f = r.f := by
  induction k with
  | zero => intro r p h _; obtain rfl := Option.some.inj h; exact ⟨rfl, rfl, rfl⟩
  | succ k ih =>
    intro r p h hk
    unfold H5.SeqFile.shapeLoop at h
    rw [if_neg (by simp [H5.SeqFile.eof]; omega)] at h
    obtain ⟨x, h1, h⟩ := Option.bind_eq_some_iff.1 h
    obtain ⟨y, h2, h⟩ := Option.bind_eq_some_iff.1 h
    obtain rfl := Option.some.inj h
    unfold H5.SeqFile.shapeOne at h1
    simp only [Option.bind_eq_bind, Option.bind_eq_some_iff] at h1
    obtain ⟨_, _, _, _, _, _, h1⟩ := h1
    obtain rfl := Option.some.inj h1
    obtain ⟨h3, h4, h5⟩ := ih _ _ h2 (by simp only; omega)
    exact ⟨by simp only [List.length_cons] at *; omega, h4, h5⟩

theorem scrShapeLoop_len {fs : H5.Files} (k : Nat) : ∀ (r : H5.SeqScript) (p), H5.SeqScript.shapeLoop fs k r = some p →
      k ≤ r.scp.key.length - r.cur → p.1.length = k ∧ p.2.scp = r.scp := by
  induction k with
  | zero => intro r p h _; obtain rfl := Option.some.inj h; exact ⟨rfl, rfl⟩
  | succ k ih =>
    intro r p h hk
    unfold H5.SeqScript.shapeLoop at h
    rw [if_neg (by simp [H5.SeqScript.eof]; omega)] at h
    obtain ⟨x, h1, h⟩ := Option.bind_eq_some_iff.1 h
    obtain ⟨y, h2, h⟩ := Option.bind_eq_some_iff.1 h
    obtain rfl := Option.some.inj h
    unfold H5.SeqScript.shapeOne at h1
    simp only [Option.bind_eq_bind, Option.bind_eq_some_iff] at h1
    obtain ⟨_, _, _, _, _, _, _, _, _, _, h1⟩ := h1
    obtain rfl := Option.some.inj h1
    obtain ⟨h3, h4⟩ := ih _ _ h2 (by simp only; omega)
    exact ⟨by simp only [List.length_cons] at *; omega, h4⟩

/-- a reader just opened: the file is open. -/
def Fresh : Rd → Prop
  | .h5File r => r.f.isSome = true
  | _ => True

theorem h5open_spec {x : Scp.Scp Str Str} {a b : Nat} {k : Bool} {p : Option Str} {r : H5.SeqScript}
    (h : H5.SeqScript.open x a b k p = some r) : r.opened = none := by
  unfold H5.SeqScript.open at h
  simp only [Option.pure_def, Option.bind_eq_bind] at h
  split at h
  · obtain ⟨ks, _, h⟩ := Option.bind_eq_some_iff.1 h
    obtain rfl := Option.some.inj h
    rfl
  · obtain rfl := Option.some.inj h
    rfl

theorem open_reset {d : Disk} {o : ROpts} {s : RSpecifier} {r : Rd} (h : openSeq d o s = some r) : reset r = r ∧ Fresh r := by
  have hst := openSeq_start h
  unfold openSeq at h
  split at h
  · obtain ⟨x, hx, rfl⟩ := Option.map_eq_some_iff.1 h
    unfold H5.SeqFile.open at hx
    obtain ⟨f, _, hx⟩ := Option.bind_eq_some_iff.1 hx
    obtain ⟨ks, _, hx⟩ := Option.bind_eq_some_iff.1 hx
    obtain rfl := Option.some.inj hx
    exact ⟨rfl, rfl⟩
  · split at h
    · simp at h
    · obtain ⟨x, hx, rfl⟩ := Option.map_eq_some_iff.1 h; exact ⟨rfl, trivial⟩
  · obtain ⟨x, _, h⟩ := Option.bind_eq_some_iff.1 h
    obtain ⟨y, hy, rfl⟩ := Option.map_eq_some_iff.1 h
    have h1 := h5open_spec hy
    have h2 : y.cur = 0 := hst
    refine ⟨?_, trivial⟩
    cases y
    simp only at h1 h2
    subst h1; subst h2
    rfl
  · obtain ⟨x, _, h⟩ := Option.bind_eq_some_iff.1 h
    obtain ⟨y, hy, rfl⟩ := Option.map_eq_some_iff.1 h
    unfold openArkScp at hy
    obtain ⟨ks, _, rfl⟩ := Option.map_eq_some_iff.1 hy
    exact ⟨rfl, trivial⟩

/-- the number of rows reported is the number of records that can be read, and `reset` goes back to the first. -/
theorem numRows_count {e : Env} {d : Disk} {r r' : Rd} {items : List (Str × Nd)} (hs : Start r) (hc : Sound e r)
    (hre : reset r = r) (hfr : Fresh r) (h : r.read e d 0 = some (items, r')) {p : List (Str × Int) × Rd} (hn : numRows e d r = some p) :
    p.1.length = items.length ∧ reset p.2 = r := by
  cases r with
  | arkFile r =>
    obtain ⟨its, hits⟩ := hc
    have hat : ArkAt e.D its 0 false r := ⟨hits, by rw [hs.1]; simpa using hits, hs.2⟩
    obtain ⟨r2, h1, h2, h3⟩ := ark_both hat e.pk 0
    simp only [Rd.read, h1, Option.map_some, Option.some.injEq, Prod.mk.injEq] at h
    simp only [numRows, seqNumRows, h2 true, Option.map_some, Option.bind_some] at hn
    obtain ⟨q, hq, rfl⟩ := Option.map_eq_some_iff.1 hn
    rw [← h.1]
    have hcont : r2.content = r.content := by
      unfold ArkReader.read at h1
      split at h1
      · simp at h1
      · simp only [Option.some.injEq, Prod.mk.injEq] at h1; rw [← h1.2]
    split at hq
    · simp [passed] at hq
    · simp only [Option.map_some, passed, Option.some.injEq] at hq
      obtain rfl := hq
      refine ⟨by simp, ?_⟩
      rw [← hre]
      simp only [reset, ArkReader.reset, hcont]
  | arkScp r =>
    have hc0 : r.cur = 0 := hs
    obtain ⟨hp, _⟩ := pending_of_read hs hc.clean h
    have hlen : items.length = r.scp.key.length - r.cur := by
      obtain ⟨_, r2, hl⟩ := hp
      exact (loopG_full (scp_steps e d.bin) (le_refl _) hl).2
    obtain ⟨q, hq, rfl⟩ := Option.map_eq_some_iff.1 hn
    obtain ⟨q2, hq2, hq⟩ := Option.bind_eq_some_iff.1 hq
    obtain ⟨q3, hq3, rfl⟩ := Option.map_eq_some_iff.1 hq2
    unfold ScpReader.readShapes at hq3
    rw [if_pos rfl] at hq3
    obtain ⟨q4, hq4, rfl⟩ := Option.map_eq_some_iff.1 hq3
    obtain ⟨h1, h2⟩ := scpShapeLoop_len _ _ _ hq4 (le_refl _)
    rcases hck : scpCheck true q4.1 with _ | l
    · rw [hck] at hq; simp [passed] at hq
    · have hl : l = q4.1 := by
        unfold scpCheck at hck
        split at hck
        · simp at hck
        · exact (Option.some.inj hck).symm
      rw [hck] at hq
      simp only [Option.map_some, passed, Option.some.injEq] at hq
      obtain rfl := hq
      refine ⟨by simp only [List.length_map, hl, h1, hlen], ?_⟩
      rw [← hre]
      simp only [reset, ScpReader.reset, h2]
  | h5File r =>
    have hc0 : r.cur = 0 := hs
    obtain ⟨hp, _⟩ := pending_of_read hs hc.clean h
    have hlen : items.length = r.keys.length - r.cur := by
      obtain ⟨_, r2, hl⟩ := hp
      exact (loopG_full (seq_steps e) (le_refl _) hl).2
    obtain ⟨q, hq, rfl⟩ := Option.map_eq_some_iff.1 hn
    obtain ⟨q3, hq3, rfl⟩ := Option.map_eq_some_iff.1 hq
    unfold H5.SeqFile.readShapes at hq3
    rw [if_pos rfl] at hq3
    obtain ⟨q4, hq4, hq3⟩ := Option.bind_eq_some_iff.1 hq3
    split at hq3
    · simp at hq3
    · obtain rfl := Option.some.inj hq3
      obtain ⟨h1, h2, h3⟩ := fileShapeLoop_len _ _ _ hq4 (le_refl _)
      refine ⟨by simp only [h5Rows, List.length_map, h1, hlen], ?_⟩
      rw [← hre]
      simp only [reset, h5Rows, H5.SeqFile.reset, h3]
      have hf : r.f.isSome = true := hfr
      rw [if_pos hf, if_pos hf, h2]
  | h5Scp r =>
    have hc0 : r.cur = 0 := hs
    obtain ⟨hp, _⟩ := pending_of_read hs hc.clean h
    have hlen : items.length = r.scp.key.length - r.cur := by
      obtain ⟨_, r2, hl⟩ := hp
      exact (loopG_full (scr_steps e d.hdf) (le_refl _) hl).2
    obtain ⟨q, hq, rfl⟩ := Option.map_eq_some_iff.1 hn
    obtain ⟨q3, hq3, rfl⟩ := Option.map_eq_some_iff.1 hq
    unfold H5.SeqScript.readShapes at hq3
    rw [if_pos rfl] at hq3
    obtain ⟨q4, hq4, hq3⟩ := Option.bind_eq_some_iff.1 hq3
    split at hq3
    · simp at hq3
    · obtain rfl := Option.some.inj hq3
      obtain ⟨h1, h2⟩ := scrShapeLoop_len _ _ _ hq4 (le_refl _)
      refine ⟨by simp only [h5Rows, List.length_map, h1, hlen], ?_⟩
      rw [← hre]
      simp only [reset, h5Rows, H5.SeqScript.reset, h2]

/-! ### the rows of a readable input -/

/-- an input whose records can be read, and, if it is an ark file, walked through by shapes. -/
def Input (e : Env) (d : Disk) (ro : ROpts) (s : Str) (items : List (Str × Nd)) : Prop :=
  ∃ r r', openSeqStr d ro s = some r ∧ r.read e d 0 = some (items, r') ∧ Sound e r

theorem Input.readable {e : Env} {d : Disk} {ro : ROpts} {s : Str} {items : List (Str × Nd)} (h : Input e d ro s items) :
    Readable e d ro s items := by
  obtain ⟨r, r', h1, h2, h3⟩ := h
  exact ⟨r, r', h1, h2, h3.clean⟩

/-- what the script computes: nothing if the query of the numbers of rows raises, the rows of all records otherwise. -/
theorem rows_input {e : Env} {d : Disk} {ro : ROpts} {s : Str} {items : List (Str × Nd)} (h : Input e d ro s items)
    (f : Nd → Option Nd) :
    rows e d ro f s = ((openSeqStr d ro s).bind (numRows e d)).bind
      (fun _ => items.mapM (fun x : Str × Nd => (f x.2).map (fun y => (x.1, y)))) := by
  obtain ⟨r, r', h1, h2, h3⟩ := h
  have ho : ∃ sp, openSeq d ro sp = some r := by
    obtain ⟨x, hx, hr⟩ := Option.bind_eq_some_iff.1 h1
    exact ⟨x, hr⟩
  obtain ⟨sp, ho⟩ := ho
  have hst := openSeq_start ho
  obtain ⟨hre, hfr⟩ := open_reset ho
  obtain ⟨hp, _⟩ := pending_of_read hst h3.clean h2
  unfold rows
  rw [h1, Option.bind_some, Option.bind_some]
  rcases hn : numRows e d r with _ | p
  · rfl
  · obtain ⟨h4, h5⟩ := numRows_count hst h3 hre hfr h2 hn
    rw [Option.bind_some, Option.bind_some, h4, h5]
    exact rowsLoop_pending f items r hp

end Hyp.Extract
