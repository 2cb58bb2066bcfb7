import Verif.Place.Model
/-!
What one expects of the files of the engine and of its instances.
-/
namespace Verif.Place
open Verif

/-! ### Files -/

/-- Whether something is about the collection `c` of the database `d`. -/
def Key.ofColl (d c : Bytes) : Key → Prop
  | .doc d' c' _ => d' = d ∧ c' = c
  | .idx d' c' _ _ => d' = d ∧ c' = c
  | _ => False

/-- Whether something is about this index. -/
def Key.ofIdx (d c i : Bytes) : Key → Prop
  | .idx d' c' i' _ => d' = d ∧ c' = c ∧ i' = i
  | _ => False

instance (d c : Bytes) (k : Key) : Decidable (k.ofColl d c) := by cases k <;> unfold Key.ofColl <;> infer_instance
instance (d c i : Bytes) (k : Key) : Decidable (k.ofIdx d c i) := by cases k <;> unfold Key.ofIdx <;> infer_instance

/-- What is stored for `k` after a call, if it was `v` before. -/
def after (k : Key) (v : Option Bytes) : Call → Option Bytes
  | .save k' b => if k' = k then some b else v
  | .dropColl d c => if k.ofColl d c then none else v
  | .dropIdx d c i => if k.ofIdx d c i then none else v

/-- What is stored for `k` after the calls `h`: the last that was written, unless it was dropped since. -/
def held (k : Key) (h : List Call) : Option Bytes := h.foldl (after k) none

/-- Names that can be names of files. -/
def plain (n : Bytes) : Prop := n ≠ [] ∧ n ≠ [46] ∧ n ≠ [46, 46] ∧ 47 ∉ n ∧ 0 ∉ n

instance (n : Bytes) : Decidable (plain n) := by unfold plain; infer_instance

/-- Names of databases that are not those of files of the engine. -/
def dbName (d : Bytes) : Prop := plain d ∧ d ∉ ownNames ∧ d ≠ walName

instance (n : Bytes) : Decidable (dbName n) := by unfold dbName; infer_instance

def goodKey : Key → Prop
  | .doc d c f => dbName d ∧ plain c ∧ plain f
  | .idx d c i f => dbName d ∧ plain c ∧ plain i ∧ i ≠ baseIndex ∧ plain f
  | .own n => n ∈ ownNames
  | .log => True

def goodCall : Call → Prop
  | .save k _ => goodKey k
  | .dropColl d c => dbName d ∧ plain c
  | .dropIdx d c i => dbName d ∧ plain c ∧ plain i ∧ i ≠ baseIndex

/-- The storage directory. -/
def diskDir (cfg : Cfg) : Loc := locate cfg.cwd cfg.disk

/-- The directory of the log. -/
def walDir (cfg : Cfg) : Loc := locate cfg.cwd cfg.wal

/-- Configurations: the paths are C strings; the log is in the storage directory, as it is by default, or in
another place that is neither inside nor around it. -/
def goodCfg (cfg : Cfg) : Prop :=
  0 ∉ cfg.disk ∧ 0 ∉ cfg.wal ∧
    (walDir cfg = diskDir cfg ∨ (¬ walDir cfg <+: diskDir cfg ∧ ¬ diskDir cfg <+: walDir cfg))

/-- Places the engine has nothing to do with. -/
def outside (cfg : Cfg) (l : Loc) : Prop :=
  (¬ diskDir cfg <+: l ∧ ¬ l <+: diskDir cfg) ∧ ¬ (walDir cfg ++ [walName]) <+: l ∧ ¬ l <+: (walDir cfg ++ [walName])

/-- The claim: whatever is read is what was stored, and other files are left alone. -/
def C101_files_claim : Prop :=
  ∀ (cfg : Cfg) (fs : Fs) (h : List Call), goodCfg cfg → (∀ e ∈ fs, outside cfg e.1) →
    ∃ fs', run cfg fs h = .ok fs' ∧ (∀ k, read cfg fs' k = held k h) ∧ (∀ l, outside cfg l → get fs' l = get fs l)

/-! ### Instances -/

/-- Whether an instance has files of its directories open, or may have. -/
def using_ : Phase → Prop
  | .opening => True
  | .live => True
  | .closing => True
  | _ => False

/-- Whether the program has the instance or is making it. -/
def held_ : Phase → Prop
  | .opening => True
  | .live => True
  | _ => False

instance (p : Phase) : Decidable (using_ p) := by cases p <;> unfold using_ <;> infer_instance
instance (p : Phase) : Decidable (held_ p) := by cases p <;> unfold held_ <;> infer_instance

/-- An absolute path written out: `/a/b` -/
def spelled (names : List Bytes) : Bytes := names.flatMap fun n => 47 :: n

/-- `config::create_config` for a path, configuration.hpp:19-51: the files of the disk are in `wal`, too. -/
def createConfig (cwd : Loc) (p : Bytes) : Cfg := ⟨p, join p [119, 97, 108], join p [119, 97, 108], cwd⟩

/-- What can happen. -/
def reached (cfg : Nat → Cfg) (s : Inst) : Prop := ∃ as, acts cfg start as = some s

/-- The claim: no two instances use one directory at the same time. -/
def C102_exclusive_claim : Prop :=
  ∀ (cfg : Nat → Cfg) (s : Inst), reached cfg s → ∀ i j, i ≠ j → using_ (s.phase i) → using_ (s.phase j) →
    diskDir (cfg i) ≠ diskDir (cfg j)

/-- The claim: a directory that no instance uses can be opened. -/
def C102_reopen_claim : Prop :=
  ∀ (cfg : Nat → Cfg) (s : Inst), reached cfg s → ∀ i, s.phase i = .fresh →
    (∀ j, using_ (s.phase j) → diskDir (cfg j) ≠ diskDir (cfg i)) →
    ∃ s', act cfg s (.check i) = some s' ∧ s'.phase i = .opening

end Verif.Place
