import Verif.Proofs.Mkdir

/-!
# C66: `mkdir_p` makes the directory, whatever other processes make at the same time

All ranks of a job make the same directories (src/datastore/datastores.cpp:58, 80), and the result is not looked
at.
-/

namespace Hx.Props
open Hx Hx.Mkdir Spec.Mkdir

/-- With no file in the way, nothing refused and at least two characters, `mkdir_p` returns no error at any time,
and when it has returned the path names a directory. -/
theorem C66_partial {e : Env} {fs fs' : Fs} {path : Bytes} {n : Nat} {p : Proc}
    (h0 : (0 : UInt8) ∉ path) (h2 : 2 ≤ path.length) (hw : WellFormed fs) (hcwd : fs e.cwd = some .dir)
    (hfile : ∀ q ∈ places e.cwd path, fs q ≠ some .file) (hdeny : ∀ q ∈ places e.cwd path, e.deny q = none)
    (hr : Run e n fs (start path) fs' p) :
    (∀ err, p.ret ≠ some (some err)) ∧ (p.ret = some none → IsDir e.cwd fs' path) := by
  have hb : fs (base e path) = some .dir := by
    unfold base
    split
    · exact hw.1
    · exact hcwd
  have hf : Free e fs path := ⟨hfile, hdeny⟩
  obtain ⟨h1, hg, -⟩ := inv_run h0 hr hw (inv_start e path fs)
  refine ⟨no_error_run h0 hr hw hb hf (inv_start e path fs) (fun err h => by cases h), fun hret => ?_⟩
  rcases h1 with ⟨-, h, -⟩ | ⟨-, h⟩ | ⟨err, h⟩
  · rw [hret] at h; cases h
  · rcases h with h | h
    · omega
    · exact leads_dirs h (free_grows hf hg).1
  · rw [hret] at h; cases h

/-- Whatever is in the way: when 0 was returned, the path names something. -/
theorem C66_exists {e : Env} {fs fs' : Fs} {path : Bytes} {n : Nat} {p : Proc} (h0 : (0 : UInt8) ∉ path) (h2 : 2 ≤ path.length)
    (hw : WellFormed fs) (hr : Run e n fs (start path) fs' p) (hret : p.ret = some none) : Exists e.cwd fs' path := by
  obtain ⟨h1, -, -⟩ := inv_run h0 hr hw (inv_start e path fs)
  rcases h1 with ⟨-, h, -⟩ | ⟨-, h⟩ | ⟨err, h⟩
  · rw [hret] at h; cases h
  · rcases h with h | h
    · omega
    · refine ⟨h.1, fun q hq => ?_⟩
      have : places e.cwd path = _ := visited_last (base e path) (names path)
      rw [this, List.getLast?_concat] at hq
      cases hq
      exact h.2
  · rw [hret] at h; cases h

/-- Only directories are added, at places of the path. What a call does is among what others may do, so that the
above holds of any number of calls at the same time. -/
theorem C66_only {e : Env} {fs fs' fs'' : Fs} {path : Bytes} {n : Nat} {p p' : Proc} (h0 : (0 : UInt8) ∉ path) (hw : WellFormed fs)
    (hr : Run e n fs (start path) fs' p) (hs : step e fs' p = some (fs'', p')) :
    Grows fs' fs'' ∧ WellFormed fs'' ∧ ∀ q, fs'' q ≠ fs' q → q ∈ places e.cwd path := by
  obtain ⟨h1, -, h3⟩ := inv_run h0 hr hw (inv_start e path fs)
  obtain ⟨-, h4, h5⟩ := inv_step h0 h3 h1 hs
  exact ⟨h4, h5, fun q hq => (step_at h0 h1 hs q hq).1⟩

/-- It ends: as many steps as there are characters at most, and until it has returned there is a next one. -/
theorem C66_ends {e : Env} {fs fs' : Fs} {path : Bytes} {n : Nat} {p : Proc} (hr : Run e n fs (start path) fs' p) :
    n ≤ max 1 path.length ∧ (p.ret = none → ∃ r, step e fs' p = some r) := by
  have := run_left hr
  have hl : left (start path) = path.length - 1 + 1 := rfl
  exact ⟨by omega, step_some e fs'⟩

namespace C66Ex

/-- A file system with `/`, `/d` and a file `/f`. -/
def fs : Fs := fun p => if p = [] ∨ p = [[100]] then some .dir else if p = [[102]] then some .file else none

def e : Env := ⟨[], fun _ => none⟩

theorem wf : WellFormed fs := by
  refine ⟨rfl, fun p hp h => ?_⟩
  unfold fs at h
  split at h
  · rename_i h'
    rcases h' with rfl | rfl
    · exact absurd rfl hp
    · rfl
  · split at h
    · rename_i h'; subst h'; rfl
    · exact absurd rfl h

end C66Ex

/-- A path of one character is not made, and 0 is returned. -/
theorem C66_short_false : ∃ fs' p n, Run C66Ex.e n C66Ex.fs (start [120]) fs' p ∧ p.ret = some none ∧ ¬ Exists C66Ex.e.cwd fs' [120] := by
  refine ⟨C66Ex.fs, _, 1, .own rfl (.refl _ _), rfl, fun h => ?_⟩
  exact h.2 [[120]] rfl rfl

/-- No path of one character is made: nothing changes, in any file system. -/
theorem C66_short {e : Env} {fs fs' : Fs} {c : UInt8} {p : Proc} (hs : step e fs (start [c]) = some (fs', p)) : fs' = fs ∧ p.ret = some none := by
  cases hs
  exact ⟨rfl, rfl⟩

/-- If the path names a file, 0 is returned too: the path `/f`. -/
theorem C66_file_false : ∃ fs' p n, Run C66Ex.e n C66Ex.fs (start [47, 102]) fs' p ∧ p.ret = some none ∧ ¬ IsDir C66Ex.e.cwd fs' [47, 102] := by
  refine ⟨C66Ex.fs, _, 2, .own (p' := ⟨[47, 102, 47], 2, 3, none⟩) rfl (.own rfl (.refl _ _)), rfl, fun h => ?_⟩
  have := h [[102]] (by decide)
  cases this

/-- The hypotheses of `C66_partial` can be met, and the call returns: the path `/d/a`. -/
example : ∃ (fs' : Fs) (n : Nat) (p : Proc), (0 : UInt8) ∉ ([47, 100, 47, 97] : Bytes) ∧ WellFormed C66Ex.fs ∧ C66Ex.fs C66Ex.e.cwd = some .dir ∧
    (∀ q ∈ places C66Ex.e.cwd [47, 100, 47, 97], C66Ex.fs q ≠ some .file) ∧ (∀ q ∈ places C66Ex.e.cwd [47, 100, 47, 97], C66Ex.e.deny q = none) ∧
    Run C66Ex.e n C66Ex.fs (start [47, 100, 47, 97]) fs' p ∧ p.ret = some none ∧ C66Ex.fs [[100], [97]] = none ∧ fs' [[100], [97]] = some .dir := by
  refine ⟨Function.update C66Ex.fs [[100], [97]] (some .dir), 3, ⟨[47, 100, 47, 97, 47], 4, 5, some none⟩, by decide, C66Ex.wf, rfl, by decide, by decide, ?_, rfl, by decide, rfl⟩
  exact .own (p' := ⟨[47, 100, 47, 97, 0], 4, 3, none⟩) rfl (.own (p' := ⟨[47, 100, 47, 97, 47], 4, 5, none⟩) rfl (.own rfl (.refl _ _)))

end Hx.Props
