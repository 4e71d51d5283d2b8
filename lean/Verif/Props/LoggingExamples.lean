import Verif.Props.Logging
import Verif.Proofs.Examples

/-!
# Concrete cases for C81 and C83
-/
namespace Vista
namespace LoggingExample
open Logging
open Interp

/-! Checking equality of parameters by computation. -/

mutual
theorem eq_of_same (v w : PVal) (h : v.same w = true) : v = w := by
  match v, w with
  | .none, .none => rfl
  | .bool a, .bool b => simpa [PVal.same] using h
  | .int a, .int b => simpa [PVal.same] using h
  | .float a, .float b => simpa [PVal.same] using h
  | .str a, .str b => simpa [PVal.same] using h
  | .path a, .path b => simpa [PVal.same] using h
  | .bytes a, .bytes b => simpa [PVal.same] using h
  | .obj a, .obj b => simpa [PVal.same] using h
  | .list xs, .list ys => rw [eq_of_sameList xs ys (by simpa [PVal.same] using h)]
  | .dict es, .dict fs => rw [eq_of_sameEntries es fs (by simpa [PVal.same] using h)]
  | .params p es, .params q fs =>
    simp only [PVal.same, Bool.and_eq_true, beq_iff_eq] at h
    rw [h.1, eq_of_sameEntries es fs h.2]
termination_by structural v
theorem eq_of_sameEntry (e f : Str × PVal) (h : sameEntry e f = true) : e = f := by
  match e, f with
  | (k, v), (l, w) =>
    simp only [sameEntry, Bool.and_eq_true, beq_iff_eq] at h
    rw [h.1, eq_of_same v w h.2]
termination_by structural e
theorem eq_of_sameList (xs ys : List PVal) (h : sameList xs ys = true) : xs = ys := by
  match xs, ys with
  | [], [] => rfl
  | x :: xs, y :: ys =>
    simp only [sameList, Bool.and_eq_true] at h
    rw [eq_of_same x y h.1, eq_of_sameList xs ys h.2]
termination_by structural xs
theorem eq_of_sameEntries (es fs : Entries) (h : sameEntries es fs = true) : es = fs := by
  match es, fs with
  | [], [] => rfl
  | e :: es, f :: fs =>
    simp only [sameEntries, Bool.and_eq_true] at h
    rw [eq_of_sameEntry e f h.1, eq_of_sameEntries es fs h.2]
termination_by structural es
end

/-- The outcome is this object. -/
def isOk (r : Res Params) (p : Params) : Bool := match r with | .ok q => q.toVal.same p.toVal | .error _ => false
theorem eq_of_isOk {r : Res Params} {p : Params} (h : isOk r p = true) : r = .ok p := by
  cases r with
  | error e => simp [isOk] at h
  | ok q =>
    have := eq_of_same _ _ h
    cases p; cases q
    simp only [Params.toVal, PVal.params.injEq] at this
    rw [this.1, this.2]

def env : Env where
  cwd := ⟨['/'], ["w".toList]⟩
  fileConfig _ _ st := (.ok (), { st with disabled := true })
  text p := if p.contains "bad".toList then .error .runtimeError else .ok "text".toList

/-- As a program starts: no handlers, the root logger at `WARNING`. -/
def start : State := ⟨30, [], false, []⟩

def flat (es : Entries) : Params := ⟨[], [("logging".toList, .params ["logging".toList] es)]⟩

theorem flat_wf' (es : Entries) (h : (es.map (·.1)).Nodup) (h' : (es.all fun e => decide ('.' ∉ e.1) && !e.2.isParams && !e.2.isMapping) = true) : (flat es).WF := by
  refine .params (List.nodup_cons.2 ⟨List.not_mem_nil, List.nodup_nil⟩) ?_ ?_
  · intro e he
    rw [List.mem_singleton.1 he]
    show '.' ∉ "logging".toList
    decide
  · intro e he
    rw [List.mem_singleton.1 he]
    exact flat_wf _ es h h'

/-- `logging: {root_level: ERROR}`. -/
def errorOnly : Params := flat [("root_level".toList, .str "ERROR".toList)]
theorem errorOnly_wf : errorOnly.WF := flat_wf' _ (by simp) (by decide +kernel)
theorem errorOnly_no_file : ¬ Params.Present errorOnly "logging.config_file".toList := by
  rw [← Params.contains_present errorOnly_wf]; decide +kernel
theorem errorOnly_level : LevelName errorOnly "ERROR".toList :=
  ((rootLevelName_spec errorOnly_wf).1 _).1 rfl

example : configure env errorOnly false [] start = (.ok (), ⟨40, [40], false, []⟩) :=
  (C81_root_level errorOnly_wf errorOnly_no_file).1 _ _ errorOnly_level .error
example (level : Nat) : timesPrinted ⟨40, [40], false, []⟩ level = if 40 ≤ level then 1 else 0 :=
  C81_printed (E := env) (fs := []) (st := start) errorOnly_wf errorOnly_no_file rfl errorOnly_level .error
    ((C81_root_level errorOnly_wf errorOnly_no_file).1 _ _ errorOnly_level .error) level

/-- A level in lower case. -/
def lower : Params := flat [("root_level".toList, .str "error".toList)]
theorem lower_wf : lower.WF := flat_wf' _ (by simp) (by decide +kernel)
example : ∃ e, Params.Refused lower "logging.root_level".toList .none e ∧ configure env lower false [] start = (.error e, start) :=
  (C81_root_level lower_wf (by rw [← Params.contains_present lower_wf]; decide +kernel)).2 fun ⟨s, l, h1, h2⟩ => by
    have h3 := ((rootLevelName_spec lower_wf).1 s).2 h1
    have h4 : rootLevelName lower = .ok (.str "error".toList) := rfl
    rw [h4] at h3
    simp only [Except.ok.injEq, PVal.str.injEq] at h3
    subst h3
    have := (level_iff _ _).2 h2
    rw [show levels.lookup "error".toList = none by decide +kernel] at this
    simp at this

/-- A configuration file that does not exist. -/
def withFile : Params := flat [("config_file".toList, .str "log.cfg".toList), ("root_level".toList, .str "error".toList)]
theorem withFile_wf : withFile.WF := flat_wf' _ (by simp only [List.map_cons, List.map_nil]; decide) (by decide +kernel)
theorem withFile_present : Params.Present withFile "logging.config_file".toList := by
  rw [← Params.contains_present withFile_wf]; decide +kernel
def cfg : Loc := ["w".toList, "log.cfg".toList]
theorem withFile_path : Params.PathIs env.cwd withFile "logging.config_file".toList cfg :=
  ((Params.pathParam_spec env.cwd withFile_wf _).1 _).1 (by decide +kernel)
example : configure env withFile false [(["w".toList], .dir), (cfg, .file (.data ⟨#[]⟩))] start = (.ok (), { start with disabled := true }) :=
  (C81_config_file withFile_wf withFile_present).1 _ withFile_path ⟨_, rfl⟩
example : ∃ e, Params.Refused withFile "logging.config_file".toList .none e ∧ configure env withFile false [] start = (.error e, start) :=
  (C81_config_file withFile_wf withFile_present).2 fun ⟨l, h1, c, h2⟩ => by
    rw [Params.pathIs_unique withFile_wf h1 withFile_path] at h2
    simp [FS.node, cfg] at h2

/-- The parameters are printed once here. -/
example : ∃ st', configure env (flat []) true [] start = (.ok (), st') ∧ st'.printed = ["text".toList] := ⟨⟨20, [20], false, ["text".toList]⟩, by decide +kernel, rfl⟩
example : ∀ s, env.text errorOnly = .ok s → ∃ st'', configure env errorOnly true [] start = (.ok (), st'') ∧ st''.rootLevel = 40 ∧ st''.handlers = [40] ∧
    st''.disabled = false ∧ st''.printed = [] ++ List.replicate 0 s :=
  ((C81_log_params (E := env) (p := errorOnly) (fs := []) (st := start) ⟨40, [40], false, []⟩ (.ok ()) (by decide +kernel)).2 rfl).2

/-- Configuring logging again makes everything appear twice. -/
theorem _root_.Vista.Logging.C81_twice_counterexample :
    ∃ (p : Params) (st1 st2 : State), configure env p false [] start = (.ok (), st1) ∧ configure env p false [] st1 = (.ok (), st2) ∧
      timesPrinted st1 40 = 1 ∧ timesPrinted st2 40 = 2 :=
  ⟨errorOnly, ⟨40, [40], false, []⟩, ⟨40, [40, 40], false, []⟩, by decide +kernel, by decide +kernel, by decide, by decide⟩

/-! The entry point, with a file that sets `n` and `greeting` and includes another. -/

def command : List (Str × Str) := [("n".toList, "7".toList), ("logging.root_level".toList, "DEBUG".toList), ("n".toList, "8".toList)]
/-- A program that only says that it was run with `n`. -/
def program (p : Params) (fs : FS) (st : State) : Res Unit × FS × State :=
  match p.string "n".toList with
  | .ok (.str s) => (.ok (), fs, { st with printed := st.printed ++ [s] })
  | .ok _ => (.error .other, fs, st)
  | .error e => (.error e, fs, st)

def loaded : Params := ⟨[], [("who".toList, .str "bob".toList), ("n".toList, .int 3), ("greeting".toList, .str "hi bob, /h".toList)]⟩
theorem load_ok : Loader.load Loader.Example.world true 5 "/d/x".toList none none [] = .ok loaded := eq_of_isOk (by decide +kernel)

/-- What the program sees. -/
def seen : Params := ⟨[], [("who".toList, .str "bob".toList), ("n".toList, .str "8".toList), ("greeting".toList, .str "hi bob, /h".toList),
  ("logging".toList, .params ["logging".toList] [("root_level".toList, .str "DEBUG".toList)])]⟩
theorem override_ok : override loaded command = .ok seen := eq_of_isOk (by decide +kernel)

example : loaded.Tree ∧ seen.Tree ∧ ∀ path v, PVal.Leaf v →
      (seen.toVal.Reaches path v ↔ Params.Assigned (strings command) path v ∨ (loaded.toVal.Reaches path v ∧ ¬ ∃ w, Params.Assigned (strings command) path w)) :=
  C83_values Loader.Example.ok load_ok override_ok

theorem loaded_tree : loaded.Tree := (C83_values Loader.Example.ok load_ok override_ok).1

theorem n_given : Params.Assigned (strings command) (splitOn '.' "n".toList) (.str "8".toList) :=
  ⟨[("n".toList, .str "7".toList), ("logging.root_level".toList, .str "DEBUG".toList)], "n".toList, [], rfl, rfl, by simp⟩

/-- `n` was the number 3 in the file, and is a string now. -/
example : loaded.integer "n".toList = .ok (.int 3) ∧ seen.string "n".toList = .ok (.str "8".toList) ∧ seen.integer "n".toList = .error .parameterError :=
  ⟨rfl, (C83_strings_only loaded_tree override_ok n_given).1, (C83_strings_only loaded_tree override_ok n_given).2.1⟩

example : Params.GoodPairs (strings command) ∧ ¬ Clash loaded command := (C83_override loaded_tree command).1.1 ⟨_, override_ok⟩
/-- `who` is not a namespace. -/
example : Clash loaded [("who.name".toList, "x".toList)] :=
  ⟨["who".toList, "name".toList], .str "x".toList, ⟨[], _, [], rfl, by decide +kernel, by simp⟩,
    .inr ⟨["who".toList], .str "bob".toList, ⟨["name".toList], rfl⟩, by decide, rfl, .step (List.mem_cons_self ..) (.here _)⟩⟩

/-- The program is run with the parameters overridden, after logging is configured. -/
example : ∃ st'', st''.rootLevel = 10 ∧ st''.handlers = [10] ∧ st''.disabled = false ∧
    entryPoint env Loader.Example.world 5 program none "/d/x".toList command [] start = program seen [] st'' :=
  (C83_runs.1 loaded seen load_ok override_ok).1 ⟨10, [10], false, []⟩ (by decide +kernel)
/-- No such file. -/
example : entryPoint env Loader.Example.world 5 program none "/d/z".toList command [] start = (.error .ioError, [], start) :=
  C83_runs.2.1 _ ((Loader.C52_load (W := Loader.Example.world) (useEnv := true) 5 _ none none []).2 Params.empty (.inr (.inr ⟨rfl, rfl, rfl⟩)) |>.1 _ rfl)

end LoggingExample
end Vista
