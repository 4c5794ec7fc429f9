import Verif.Proofs.Config

/-!
# C36: which source a configuration value comes from

The part of C36 about the merged configuration is proved in full. What the options become is in
`C37_Options`.
-/

namespace Hx.Props
open Hx Hx.Config Hx.Spec.Config

/-- C36. The value of a key is the one defined by the last source that defines the key, and within a
text by the last line that defines it. -/
theorem C36_last_source (sys : Sys) (rs : List Reader) (k v : Bytes) :
    sequence sys rs k = some v ↔ LastDef (SourceDefines sys k) rs v := by
  unfold sequence
  rw [fold_last (fun m r v => process_key sys k m r v)]
  constructor
  · rintro (h | ⟨_, h⟩)
    · exact h
    · cases h
  · exact .inl

/-- C36. A key is absent exactly if no source defines it. -/
theorem C36_undefined (sys : Sys) (rs : List Reader) (k : Bytes) :
    sequence sys rs k = none ↔ ∀ r ∈ rs, ∀ v, ¬ SourceDefines sys k r v := by
  constructor
  · intro h r hr v hv
    have : ∀ l : List Reader, (∃ r ∈ l, ∃ v, SourceDefines sys k r v) → ∃ v, LastDef (SourceDefines sys k) l v := by
      intro l
      induction l with
      | nil => rintro ⟨x, hx, _⟩; cases hx
      | cons y ys ih =>
        rintro ⟨x, hx, w, hw⟩
        by_cases hys : ∃ x ∈ ys, ∃ w, SourceDefines sys k x w
        · obtain ⟨w, pre, z, post, rfl, hz, hp⟩ := ih hys
          exact ⟨w, y :: pre, z, post, rfl, hz, hp⟩
        · rcases List.mem_cons.mp hx with rfl | hx
          · exact ⟨w, [], x, ys, rfl, hw, fun z hz u hu => hys ⟨z, hz, u, hu⟩⟩
          · exact absurd ⟨x, hx, w, hw⟩ hys
    obtain ⟨w, hw⟩ := this rs ⟨r, hr, v, hv⟩
    rw [← C36_last_source, h] at hw
    cases hw
  · intro h
    cases hs : sequence sys rs k with
    | none => rfl
    | some v =>
      obtain ⟨pre, x, post, rfl, hd, _⟩ := (C36_last_source sys rs k v).mp hs
      exact absurd hd (h x (by simp) v)

/-- A file that sets `A` twice, and an environment variable that sets `B`. -/
def exampleSys : Sys where
  files n := if n = str "f" then some (str "# comment\nA 1\n  B\t 2 3 \n\nA 4\n") else none
  env n := if n = str "V" then some (str "5") else none

example : sequence exampleSys [.file (str "f")] (str "A") = some (str "4") := by decide +kernel
example : sequence exampleSys [.file (str "f")] (str "B") = some (str "2 3") := by decide +kernel
example : sequence exampleSys [.file (str "f"), .envVar (str "V") (str "B")] (str "B") = some (str "5") := by
  decide +kernel
example : sequence exampleSys [.envVar (str "V") (str "B"), .file (str "f")] (str "B") = some (str "2 3") := by
  decide +kernel
example : LastDef (SourceDefines exampleSys (str "A")) [.file (str "f")] (str "4") :=
  (C36_last_source _ _ _ _).mp (by decide +kernel)

/-- C36. A line defines at most one key, and that with one value. -/
theorem C36_line_unique {line k k' v v' : Bytes} (h : LineDefines line k v) (h' : LineDefines line k' v') :
    k = k' ∧ v = v' := by
  rw [← lineDef_iff] at h h'
  rw [h] at h'
  simpa using h'

/-- C36. Blank lines and lines with a comment, anywhere in the text, change nothing. -/
theorem C36_comments {a b : List Bytes} {c text text' : Bytes} (hc : Comment c) (h : Lines text (a ++ c :: b))
    (h' : Lines text' (a ++ b)) (m : Map) : parseKV m text = parseKV m text' := by
  rw [fold_getLines h, fold_getLines h', List.foldl_append, List.foldl_append, List.foldl_cons, parseLine_eq _ c,
    lineDef_comment hc]

example : Comment (str "  # A 7") := .inr ⟨str "  ", str " A 7", by decide, by unfold Blank; decide⟩
example : Lines (str "A 1\n  # A 7\nB 2") ([str "A 1"] ++ str "  # A 7" :: [str "B 2"]) :=
  ⟨by simp, by decide, by decide⟩

/-- C36. The white space around key and value changes nothing. -/
theorem C36_blanks {a b c a' b' c' k v : Bytes} (m : Map) (hk : Word k) (h35 : k.head? ≠ some 35) (hv : Value v)
    (ha : ∀ x ∈ a, Blank x) (hb : ∀ x ∈ b, Blank x) (hc : ∀ x ∈ c, Blank x)
    (ha' : ∀ x ∈ a', Blank x) (hb' : ∀ x ∈ b', Blank x) (hc' : ∀ x ∈ c', Blank x) (hne : b ≠ []) (hne' : b' ≠ []) :
    parseLine m (a ++ k ++ b ++ v ++ c) = m.set k v ∧
      parseLine m (a' ++ k ++ b' ++ v ++ c') = parseLine m (a ++ k ++ b ++ v ++ c) := by
  have h1 := (lineDef_iff (a ++ k ++ b ++ v ++ c) k v).mpr ⟨hk, h35, hv, a, b, c, rfl, ha, hb, hc, fun _ => hne⟩
  have h2 := (lineDef_iff (a' ++ k ++ b' ++ v ++ c') k v).mpr ⟨hk, h35, hv, a', b', c', rfl, ha', hb', hc', fun _ => hne'⟩
  rw [parseLine_eq, parseLine_eq, h1, h2]
  exact ⟨rfl, rfl⟩

example : parseLine Map.empty (str " A \t x y \r") (str "A") = some (str "x y") := by decide +kernel

/-- The keys for which `default_reader` looks at environment variables: those of `DEFAULT_CONFIG`. -/
def envKeys (b : Build) : List Bytes := (defaultConfig b).map Prod.fst

theorem lastDef_map {sys : Sys} {k v : Bytes} {keys : List Bytes} (pre : List Reader) (hk : k ∈ keys)
    (he : sys.env (str "HXHIM_" ++ k) = some v) :
    LastDef (SourceDefines sys k) (pre ++ keys.map fun k => .envVar (str "HXHIM_" ++ k) k) v := by
  have : ∃ a c, keys = a ++ k :: c ∧ k ∉ c := by
    clear he
    induction keys with
    | nil => cases hk
    | cons x xs ih =>
      by_cases hx : k ∈ xs
      · obtain ⟨a, c, rfl, hc⟩ := ih hx
        exact ⟨x :: a, c, rfl, hc⟩
      · rcases List.mem_cons.mp hk with rfl | h
        · exact ⟨[], xs, rfl, hx⟩
        · exact absurd h hx
  obtain ⟨a, c, rfl, hc⟩ := this
  refine ⟨pre ++ a.map fun k => .envVar (str "HXHIM_" ++ k) k, .envVar (str "HXHIM_" ++ k) k,
    c.map fun k => .envVar (str "HXHIM_" ++ k) k, by simp, ⟨rfl, he⟩, ?_⟩
  intro y hy w hw
  obtain ⟨k', hk', rfl⟩ := List.mem_map.mp hy
  exact hc (hw.1 ▸ hk')

/-- C36, the sources of `default_reader`. An environment variable decides the value of a key of
`DEFAULT_CONFIG`; without it the file named by `HXHIM_CONFIG` does; without that `hxhim.conf`. The
order in which the environment variables are read does not matter. -/
theorem C36_priority (b : Build) (sys : Sys) (keys : List Bytes) (hkeys : keys.Perm (envKeys b)) (k v : Bytes) :
    (k ∈ envKeys b → sys.env (str "HXHIM_" ++ k) = some v → sequence sys (defaultReaders keys) k = some v) ∧
    ((k ∉ envKeys b ∨ sys.env (str "HXHIM_" ++ k) = none) → SourceDefines sys k (.envFile (str "HXHIM_CONFIG")) v →
      sequence sys (defaultReaders keys) k = some v) ∧
    ((k ∉ envKeys b ∨ sys.env (str "HXHIM_" ++ k) = none) →
      (∀ w, ¬ SourceDefines sys k (.envFile (str "HXHIM_CONFIG")) w) →
      SourceDefines sys k (.file (str "hxhim.conf")) v → sequence sys (defaultReaders keys) k = some v) := by
  have hnone : (k ∉ envKeys b ∨ sys.env (str "HXHIM_" ++ k) = none) →
      ∀ y ∈ keys.map fun k => (Reader.envVar (str "HXHIM_" ++ k) k), ∀ w, ¬ SourceDefines sys k y w := by
    intro h y hy w hw
    obtain ⟨k', hk', rfl⟩ := List.mem_map.mp hy
    obtain ⟨rfl, he⟩ := hw
    rcases h with h | h
    · exact h (hkeys.mem_iff.mp hk')
    · rw [h] at he; cases he
  refine ⟨fun hk he => ?_, fun h hd => ?_, fun h hn hd => ?_⟩
  · rw [C36_last_source]
    exact lastDef_map _ (hkeys.mem_iff.mpr hk) he
  · rw [C36_last_source]
    exact ⟨[.file (str "hxhim.conf")], .envFile (str "HXHIM_CONFIG"), _, rfl, hd, hnone h⟩
  · rw [C36_last_source]
    refine ⟨[], .file (str "hxhim.conf"), _, rfl, hd, ?_⟩
    intro y hy w
    rcases List.mem_cons.mp hy with rfl | hy
    · exact hn w
    · exact hnone h y hy w

/-- An environment with `HXHIM_CLIENT_RATIO`, and the configuration file. -/
def envSys : Sys where
  files n := if n = str "hxhim.conf" then some (str "CLIENT_RATIO 7\nNUM_LISTENERS 2\n") else none
  env n := if n = str "HXHIM_CLIENT_RATIO" then some (str "3")
    else if n = str "HXHIM_NUM_LISTENERS" then some (str "9") else none

example : sequence envSys (defaultReaders (envKeys ⟨true, false, false⟩)) kClientRatio = some (str "3") := by
  decide +kernel

/-- C36 is false for the keys that are not in `DEFAULT_CONFIG`: their environment variables are not
read. With MPI the number of listeners can only be set in a file; the same holds for
`THALLIUM_MODULE`, `THALLIUM_THREAD_COUNT`, `HISTOGRAM_TRACK_PREDICATES` and `ELEN_POS_SYMBOL`. -/
theorem C36_env_ignored_false (b : Build) (sys : Sys) (keys : List Bytes) (hkeys : keys.Perm (envKeys b)) (k : Bytes)
    (hk : k ∈ [kListeners, kModule, kThreads, kTrack, kPos]) (env' : Bytes → Option Bytes)
    (hc : env' (str "HXHIM_CONFIG") = sys.env (str "HXHIM_CONFIG")) :
    sequence { sys with env := env' } (defaultReaders keys) k = sequence sys (defaultReaders keys) k := by
  have hnk : k ∉ keys := by
    intro h
    have h2 := hkeys.mem_iff.mp h
    have : ∀ b : Build, ∀ k ∈ [kListeners, kModule, kThreads, kTrack, kPos], k ∉ envKeys b := by
      intro ⟨l, r, t⟩
      cases l <;> cases r <;> cases t <;> decide +kernel
    exact this b k hk h2
  have hd : ∀ (r : Reader), r ∈ defaultReaders keys → ∀ v,
      (SourceDefines { sys with env := env' } k r v ↔ SourceDefines sys k r v) := by
    intro r hr v
    unfold defaultReaders at hr
    simp only [List.cons_append, List.nil_append, List.mem_cons, List.mem_map] at hr
    rcases hr with rfl | rfl | ⟨k', hk', rfl⟩
    · exact Iff.rfl
    · simp only [SourceDefines, hc]
    · constructor <;> rintro ⟨rfl, _⟩ <;> exact absurd hk' hnk
  have : ∀ v, sequence { sys with env := env' } (defaultReaders keys) k = some v ↔
      sequence sys (defaultReaders keys) k = some v := by
    intro v
    rw [C36_last_source, C36_last_source]
    constructor
    · rintro ⟨pre, x, post, he, hx, hp⟩
      exact ⟨pre, x, post, he, (hd x (by rw [he]; simp) v).mp hx,
        fun y hy w hw => hp y hy w ((hd y (by rw [he]; simp [hy]) w).mpr hw)⟩
    · rintro ⟨pre, x, post, he, hx, hp⟩
      exact ⟨pre, x, post, he, (hd x (by rw [he]; simp) v).mpr hx,
        fun y hy w hw => hp y hy w ((hd y (by rw [he]; simp [hy]) w).mp hw)⟩
  cases h : sequence sys (defaultReaders keys) k with
  | some v => exact (this v).mpr h
  | none =>
    cases h' : sequence { sys with env := env' } (defaultReaders keys) k with
    | none => rfl
    | some v => rw [(this v).mp h'] at h; cases h

example : sequence envSys (defaultReaders (envKeys ⟨true, false, false⟩)) kListeners = some (str "2") := by
  decide +kernel

/-- C36 is false for a comment behind a value: it becomes part of the value, and a name followed by a
comment is not recognised. -/
theorem C36_trailing_comment_false :
    parseLine Map.empty (str "DEBUG_LEVEL ERROR # quiet") kDebugLevel = some (str "ERROR # quiet") ∧
    getFromMap (parseLine Map.empty (str "DEBUG_LEVEL ERROR # quiet")) kDebugLevel debugLevels = .error ∧
    getFromMap (parseLine Map.empty (str "DEBUG_LEVEL ERROR")) kDebugLevel debugLevels = .found 0x00400000 := by
  decide +kernel

end Hx.Props
