import Verif.Spec.JobFile
import Verif.Props.Project

/-!
# Job files are read with the files beside them (C96)
-/

namespace Verif.Props.JobFile
open Verif.Job Verif.Spec Verif.Spec.JobFile

theorem member_iff {name : Text} {j v : Json} :
    member name j = some v ↔
      ∃ before after, j = .object (before ++ (name, v) :: after) ∧ ∀ m ∈ after, m.1 ≠ name := by
  cases j with
  | object ms =>
    simp only [member, Option.map_eq_some_iff, List.find?_eq_some_iff_append]
    constructor
    · rintro ⟨⟨k, w⟩, ⟨hk, as, bs, hms, has⟩, rfl⟩
      have hk' : k = name := by simpa using hk
      subst hk'
      refine ⟨bs.reverse, as.reverse, ?_, ?_⟩
      · rw [← List.reverse_reverse ms, hms]; simp
      · intro m hm
        have := has m (by simpa using hm)
        simpa using this
    · rintro ⟨b, a, h, ha⟩
      cases h
      refine ⟨(name, v), ⟨by simp, a.reverse, b.reverse, by simp, ?_⟩, rfl⟩
      intro m hm
      have := ha m (by simpa using hm)
      simpa using this
  | _ => simp [member]

theorem at_nil {j w : Json} : At j [] w ↔ j = w := by
  constructor
  · rintro ⟨⟩; rfl
  · rintro rfl; exact .here _

theorem at_cons {j w : Json} {k : Text} {ks : List Text} :
    At j (k :: ks) w ↔ ∃ v, member k j = some v ∧ At v ks w := by
  constructor
  · rintro (_ | ⟨b, _, v, a, _, _, h1, h2⟩)
    exact ⟨v, member_iff.2 ⟨b, a, rfl, h1⟩, h2⟩
  · rintro ⟨v, h1, h2⟩
    obtain ⟨b, a, rfl, ha⟩ := member_iff.1 h1
    exact .into b k v a ks w ha h2

theorem text_nil {j : Json} : IsText j [] ↔ ∃ t, str j = some t := by
  simp only [IsText, at_nil]
  cases j <;> simp [str]

theorem text_cons {j : Json} {k : Text} {ks : List Text} :
    IsText j (k :: ks) ↔ ∃ v, member k j = some v ∧ IsText v ks := by
  simp only [IsText, at_cons]
  constructor
  · rintro ⟨t, v, h1, h2⟩; exact ⟨v, h1, t, h2⟩
  · rintro ⟨v, h1, t, h2⟩; exact ⟨t, v, h1, h2⟩

theorem number_nil {r : Json → Option α} {j : Json} : IsNumber r j [] ↔ ∃ a, r j = some a := by
  simp [IsNumber, at_nil]

theorem number_cons {r : Json → Option α} {j : Json} {k : Text} {ks : List Text} :
    IsNumber r j (k :: ks) ↔ ∃ v, member k j = some v ∧ IsNumber r v ks := by
  simp only [IsNumber, at_cons]
  constructor
  · rintro ⟨w, a, ⟨v, h1, h2⟩, h3⟩; exact ⟨v, h1, w, a, h2, h3⟩
  · rintro ⟨v, h1, w, a, h2, h3⟩; exact ⟨w, a, ⟨v, h1, h2⟩, h3⟩

theorem optional_iff {r : Json → Option α} {ok : Json → Prop} {j : Json} {k : Text}
    (hok : ∀ v, ok v ↔ ∃ a, r v = some a) :
    IsOptional ok j k ↔ ∃ a, optionally k r j = some a := by
  simp only [IsOptional, at_cons, at_nil, optionally]
  cases hm : member k j with
  | none => simp
  | some v =>
    have : (∀ w, (∃ u, some v = some u ∧ u = w) → w = Json.null ∨ ok w) ↔ (v = .null ∨ ok v) := by
      constructor
      · exact fun h => h v ⟨v, rfl, rfl⟩
      · rintro h w ⟨u, hu, rfl⟩
        cases hu; exact h
    rw [this, hok]
    cases v <;> simp

theorem optional_text {j : Json} {k : Text} :
    IsOptional (fun v => ∃ t, v = .string t) j k ↔ ∃ a, optionally k str j = some a := by
  apply optional_iff
  intro v
  cases v <;> simp [str]

theorem optional_float {n : Numbers} {j : Json} {k : Text} :
    IsOptional (fun v => ∃ a, n.float v = some a) j k ↔ ∃ a, optionally k n.float j = some a :=
  optional_iff fun _ => Iff.rfl

/-- Two places under one member. -/
theorem both {o : Option β} {P Q : β → Prop} :
    (∃ v, o = some v ∧ P v ∧ Q v) ↔ (∃ v, o = some v ∧ P v) ∧ ∃ v, o = some v ∧ Q v := by
  cases o <;> simp

theorem field_iff {k : Text} {r : Json → Option α} {j : Json} :
    (∃ a, field k r j = some a) ↔ ∃ v, member k j = some v ∧ ∃ a, r v = some a := by
  simp only [field, Option.bind_eq_some_iff]
  constructor
  · rintro ⟨a, v, h⟩; exact ⟨v, h.1, a, h.2⟩
  · rintro ⟨v, h1, a, h2⟩; exact ⟨a, v, h1, h2⟩

theorem software_iff {j : Json} :
    (∃ g, generationSoftware j = some g) ↔
      IsText j ["Vendor".toList] ∧ IsText j ["Application".toList] ∧ IsText j ["Version".toList] := by
  simp only [text_cons, text_nil, ← field_iff]
  unfold generationSoftware
  cases field "Vendor".toList str j <;> cases field "Application".toList str j <;>
    cases field "Version".toList str j <;> simp

theorem header_iff {j : Json} :
    (∃ g, header j = some g) ↔
      IsText j ["CreationDate".toList] ∧ IsText j ["GenerationSoftware".toList, "Vendor".toList] ∧
      IsText j ["GenerationSoftware".toList, "Application".toList] ∧
      IsText j ["GenerationSoftware".toList, "Version".toList] := by
  rw [text_cons (k := "GenerationSoftware".toList), text_cons (k := "GenerationSoftware".toList),
    text_cons (k := "GenerationSoftware".toList), ← both, ← both]
  simp only [← software_iff]
  rw [← field_iff]
  simp only [text_cons, text_nil]
  rw [← field_iff]
  unfold header
  cases field "CreationDate".toList str j <;> cases field "GenerationSoftware".toList generationSoftware j <;> simp

theorem id_iff {j : Json} :
    (∃ g, projectId j = some g) ↔
      IsText j ["Name".toList] ∧ IsText j ["GUID".toList] ∧ IsText j ["Revision".toList] := by
  simp only [text_cons, text_nil, ← field_iff]
  unfold projectId
  cases field "Name".toList str j <;> cases field "GUID".toList str j <;>
    cases field "Revision".toList str j <;> simp

theorem size_iff {n : Numbers} {j : Json} :
    (∃ g, size n j = some g) ↔ IsNumber n.float j ["X".toList] ∧ IsNumber n.float j ["Y".toList] := by
  simp only [number_cons, number_nil, ← field_iff]
  unfold size
  cases field "X".toList n.float j <;> cases field "Y".toList n.float j <;> simp

theorem specs_iff {n : Numbers} {j : Json} :
    (∃ g, generalSpecs n j = some g) ↔
      (IsText j ["ProjectId".toList, "Name".toList] ∧ IsText j ["ProjectId".toList, "GUID".toList] ∧
        IsText j ["ProjectId".toList, "Revision".toList]) ∧
      (IsNumber n.float j ["Size".toList, "X".toList] ∧ IsNumber n.float j ["Size".toList, "Y".toList]) ∧
      IsNumber n.int j ["LayerNumber".toList] ∧ IsNumber n.float j ["BoardThickness".toList] ∧
      IsOptional (fun v => ∃ t, v = .string t) j "Finish".toList := by
  rw [text_cons (k := "ProjectId".toList), text_cons (k := "ProjectId".toList),
    text_cons (k := "ProjectId".toList), ← both, ← both, number_cons (k := "Size".toList),
    number_cons (k := "Size".toList), ← both, optional_text]
  simp only [← id_iff, ← size_iff]
  simp only [number_cons, number_nil, ← field_iff]
  unfold generalSpecs
  cases field "ProjectId".toList projectId j <;> cases field "Size".toList (size n) j <;>
    cases field "LayerNumber".toList n.int j <;> cases field "BoardThickness".toList n.float j <;>
    cases optionally "Finish".toList str j <;> simp

theorem layer_iff {n : Numbers} {j : Json} : (∃ g, materialStackup n j = some g) ↔ IsLayer n j := by
  simp only [IsLayer, optional_text, optional_float, text_cons, text_nil, ← field_iff]
  unfold materialStackup
  cases field "Name".toList str j <;> cases field "Type".toList str j <;>
    cases optionally "Thickness".toList n.float j <;> cases optionally "Material".toList str j <;>
    cases optionally "Notes".toList str j <;> simp

theorem at_text {j : Json} {k t : Text} : At j [k] (.string t) ↔ field k str j = some t := by
  simp only [at_cons, at_nil, field, Option.bind_eq_some_iff]
  constructor
  · rintro ⟨v, h, rfl⟩; exact ⟨_, h, rfl⟩
  · rintro ⟨v, h, hs⟩
    cases v <;> simp [str] at hs
    subst hs; exact ⟨_, h, rfl⟩

theorem entry_iff {j : Json} {file function : Text} :
    (∃ g, filesAttributes j = some g ∧ g.path = file ∧ g.fileFunction = function) ↔ IsEntry j file function := by
  simp only [IsEntry, at_text, text_cons, text_nil, ← field_iff]
  unfold filesAttributes
  cases field "Path".toList str j <;> cases field "FileFunction".toList str j <;>
    cases field "FilePolarity".toList str j <;> simp

theorem list_some {r : Json → Option α} {j : Json} {as : List α} :
    list r j = some as ↔ ∃ js, j = .array js ∧ List.Forall₂ (fun v a => r v = some a) js as := by
  cases j with
  | array js =>
    simp only [list, Json.array.injEq, exists_eq_left']
    induction js generalizing as with
    | nil =>
      simp only [List.mapM_nil, Option.pure_def, Option.some.injEq]
      constructor
      · rintro rfl; exact .nil
      · rintro ⟨⟩; rfl
    | cons x xs ih =>
      simp only [List.mapM_cons, Option.bind_eq_bind, Option.bind_eq_some_iff, Option.pure_def, Option.some.injEq]
      constructor
      · rintro ⟨a, ha, bs, hb, rfl⟩
        exact .cons ha (ih.1 hb)
      · rintro (_ | ⟨ha, hb⟩)
        exact ⟨_, ha, _, ih.2 hb, rfl⟩
  | _ => simp [list]

theorem files_iff {j : Json} {files : List (Text × Text)} :
    (∃ fs, field "FilesAttributes".toList (list filesAttributes) j = some fs ∧
      fs.map (fun f => (f.path, f.fileFunction)) = files) ↔
    ∃ es, At j ["FilesAttributes".toList] (.array es) ∧ List.Forall₂ (fun e f => IsEntry e f.1 f.2) es files := by
  simp only [field, Option.bind_eq_some_iff, list_some, at_cons, at_nil]
  constructor
  · rintro ⟨fs, ⟨v, hv, js, rfl, h⟩, rfl⟩
    refine ⟨js, ⟨_, hv, rfl⟩, ?_⟩
    rw [List.forall₂_map_right_iff]
    exact h.imp fun e f hf => entry_iff.1 ⟨f, hf, rfl, rfl⟩
  · rintro ⟨es, ⟨v, hv, rfl⟩, h⟩
    have : ∃ fs, List.Forall₂ (fun v a => filesAttributes v = some a) es fs ∧
        fs.map (fun f => (f.path, f.fileFunction)) = files := by
      clear hv
      induction h with
      | nil => exact ⟨[], .nil, rfl⟩
      | cons h _ ih =>
        obtain ⟨g, hg, h1, h2⟩ := entry_iff.2 h
        obtain ⟨fs, hf, hm⟩ := ih
        exact ⟨g :: fs, .cons hg hf, by simp [h1, h2, hm]⟩
    obtain ⟨fs, hf, hm⟩ := this
    exact ⟨fs, ⟨_, hv, _, rfl, hf⟩, hm⟩

theorem stackup_iff {n : Numbers} {j : Json} :
    (∃ fs, field "MaterialStackup".toList (list (materialStackup n)) j = some fs) ↔
    ∃ ls, At j ["MaterialStackup".toList] (.array ls) ∧ ∀ l ∈ ls, IsLayer n l := by
  simp only [field, Option.bind_eq_some_iff, list_some, at_cons, at_nil]
  constructor
  · rintro ⟨fs, v, hv, js, rfl, h⟩
    refine ⟨js, ⟨_, hv, rfl⟩, ?_⟩
    clear hv
    induction h with
    | nil => simp
    | cons h _ ih =>
      intro l hl
      rcases List.mem_cons.1 hl with rfl | hl
      · exact layer_iff.1 ⟨_, h⟩
      · exact ih l hl
  · rintro ⟨es, ⟨v, hv, rfl⟩, h⟩
    have : ∃ fs, List.Forall₂ (fun v a => materialStackup n v = some a) es fs := by
      clear hv
      induction es with
      | nil => exact ⟨[], .nil⟩
      | cons x xs ih =>
        obtain ⟨fs, hf⟩ := ih fun l hl => h l (List.mem_cons_of_mem _ hl)
        obtain ⟨g, hg⟩ := layer_iff.2 (h x List.mem_cons_self)
        exact ⟨g :: fs, .cons hg hf⟩
    obtain ⟨fs, hf⟩ := this
    exact ⟨fs, _, hv, _, rfl, hf⟩

theorem finish_iff {j : Json} (h : ∃ v, member "GeneralSpecs".toList j = some v) :
    (∀ g, At j ["GeneralSpecs".toList] g → IsOptional (fun v => ∃ t, v = .string t) g "Finish".toList) ↔
    ∃ v, member "GeneralSpecs".toList j = some v ∧ IsOptional (fun v => ∃ t, v = .string t) v "Finish".toList := by
  obtain ⟨v, hv⟩ := h
  simp only [at_cons, at_nil, hv]
  constructor
  · exact fun h => ⟨v, rfl, h v ⟨v, rfl, rfl⟩⟩
  · rintro ⟨w, hw, h⟩ g ⟨u, hu, rfl⟩
    cases hw; cases hu; exact h

theorem fields_iff {n : Numbers} {j : Json} {files : List (Text × Text)} :
    (∃ f, fields n j = some f ∧ f.filesAttributes.map (fun f => (f.path, f.fileFunction)) = files) ↔
      IsJob n j files := by
  have key : (∃ f, fields n j = some f ∧ f.filesAttributes.map (fun f => (f.path, f.fileFunction)) = files) ↔
      (∃ g, field "Header".toList header j = some g) ∧
      (∃ g, field "GeneralSpecs".toList (generalSpecs n) j = some g) ∧
      (∃ fs, field "FilesAttributes".toList (list filesAttributes) j = some fs ∧
        fs.map (fun f => (f.path, f.fileFunction)) = files) ∧
      ∃ fs, field "MaterialStackup".toList (list (materialStackup n)) j = some fs := by
    unfold fields
    cases field "Header".toList header j <;> cases field "GeneralSpecs".toList (generalSpecs n) j <;>
      cases field "FilesAttributes".toList (list filesAttributes) j <;>
      cases field "MaterialStackup".toList (list (materialStackup n)) j <;> simp
  rw [key, files_iff, stackup_iff, field_iff, field_iff]
  simp only [header_iff, specs_iff, both, ← text_cons, ← number_cons]
  constructor
  · rintro ⟨⟨h1, h2, h3, h4⟩, ⟨⟨h5, h6, h7⟩, ⟨h8, h9⟩, h10, h11, h12⟩, h13, h14⟩
    exact ⟨h1, h2, h3, h4, h5, h6, h7, h8, h9, h10, h11, (finish_iff ⟨_, h12.choose_spec.1⟩).2 h12, h13, h14⟩
  · rintro ⟨h1, h2, h3, h4, h5, h6, h7, h8, h9, h10, h11, h12, h13, h14⟩
    have hg : ∃ v, member "GeneralSpecs".toList j = some v := by
      obtain ⟨v, hv, -⟩ := text_cons.1 h5
      exact ⟨v, hv⟩
    exact ⟨⟨h1, h2, h3, h4⟩, ⟨⟨h5, h6, h7⟩, ⟨h8, h9⟩, h10, h11, (finish_iff hg).1 h12⟩, h13, h14⟩

/-- A small job. -/
def exampleJob : Json :=
  .object
    [("Header".toList, .object
      [("CreationDate".toList, .string "2024".toList),
       ("GenerationSoftware".toList, .object
         [("Vendor".toList, .string "KiCad".toList), ("Application".toList, .string "Pcbnew".toList),
          ("Version".toList, .string "8".toList)])]),
     ("Extra".toList, .null),
     ("FilesAttributes".toList, .array
       [.object [("Path".toList, .string "top.gbr".toList), ("FilePolarity".toList, .string "Positive".toList),
         ("FileFunction".toList, .string "Copper,L1,Top".toList)]]),
     ("GeneralSpecs".toList, .object
       [("ProjectId".toList, .object
         [("Name".toList, .string "x".toList), ("GUID".toList, .string "y".toList),
          ("Revision".toList, .string "z".toList)]),
        ("Size".toList, .object [("X".toList, .number ['1']), ("Y".toList, .number ['2'])]),
        ("LayerNumber".toList, .number ['2']), ("BoardThickness".toList, .number ['1'])]),
     ("MaterialStackup".toList, .array [])]

/-- Numbers of one digit. -/
def exampleNumbers : Numbers where
  float | .number [c] => some (c.toNat - 48)
        | _ => none
  int | .number [c] => some (c.toNat - 48)
      | _ => none

/-- A disk with the job file and the file it names. -/
def exampleDisk (p : Path) : Option Text :=
  if p = path "out/board.gbrjob".toList then some ['j']
  else if p = path "out/top.gbr".toList then some "M02*".toList
  else none

example : IsJob exampleNumbers exampleJob [("top.gbr".toList, "Copper,L1,Top".toList)] := by
  rw [← fields_iff]
  exact ⟨_, rfl, rfl⟩

/-- A job file can be loaded exactly when it is on the disk, is JSON and has the members of a job; other members, and
the order of members, do not matter.  Its list of files is that of the text, in the same order. -/
theorem c96_loads (n : Numbers) (parse : Text → Option Json) (disk : Path → Option Text) (file : Text)
    (files : List (Text × Text)) :
    (∃ job, fromFile n parse disk file = .ok job ∧
      job.fields.filesAttributes.map (fun f => (f.path, f.fileFunction)) = files) ↔
    ∃ text j, disk (path file) = some text ∧ parse text = some j ∧ IsJob n j files := by
  unfold fromFile
  cases disk (path file) with
  | none => simp
  | some text =>
    cases hp : parse text with
    | none => simp [hp]
    | some j =>
      have : (∃ text' j', some text = some text' ∧ parse text' = some j' ∧ IsJob n j' files) ↔ IsJob n j files := by
        constructor
        · rintro ⟨_, j', h1, h2, h3⟩
          cases h1
          rw [hp] at h2
          cases h2
          exact h3
        · exact fun h => ⟨_, _, rfl, hp, h⟩
      simp only [hp]
      rw [this, ← fields_iff]
      unfold validate
      cases fields n j <;> simp

theorem split_slash (dir rest : Text) :
    (dir ++ '/' :: rest).splitOn '/' = dir.splitOn '/' ++ rest.splitOn '/' :=
  List.splitOn_append_cons_of_beq _ _ (by simp)

theorem parts_slash (dir rest : Text) : (path (dir ++ '/' :: rest)).parts = (path dir).parts ++ (path rest).parts := by
  simp only [path, split_slash, List.filter_append]

theorem parts_name {name : Text} (h : '/' ∉ name) (h1 : name ≠ []) (h2 : name ≠ ['.']) : (path name).parts = [name] := by
  simp only [path, List.splitOn_eq_singleton h]
  simp [h1, h2]

theorem absolute_slash (dir rest rest' : Text) :
    (path (dir ++ '/' :: rest)).absolute = (path (dir ++ '/' :: rest')).absolute := by
  cases dir <;> rfl

theorem not_absolute {t : Text} (h : t.head? ≠ some '/') : (path t).absolute = false := by
  simpa [path] using h

theorem beside_path {job rel t : Text} (h : Beside job rel t) : (path job).parent.join (path rel) = path t := by
  cases h with
  | relative dir name rel h1 h2 h3 h4 =>
    rw [Path.join, if_neg (by simp [not_absolute h4])]
    have : (path (dir ++ '/' :: name)).parent.parts ++ (path rel).parts = (path (dir ++ '/' :: rel)).parts := by
      simp [Path.parent, parts_slash, parts_name h1 h2 h3]
    rw [this]
    simp only [Path.parent, absolute_slash dir name rel]
  | here name _ h1 h2 h3 h4 =>
    rw [Path.join, if_neg (by simp [not_absolute h4])]
    have h5 : (path job).absolute = false := by
      apply not_absolute
      cases job with
      | nil => simp
      | cons c cs => rintro ⟨⟩; simp at h1
    simp only [Path.parent, parts_name h1 h2 h3, h5]
    rw [← not_absolute h4]
    rfl
  | absolute _ _ h => simp [Path.join, path, h]

theorem load_iff {disk : Path → Option Text} {root : Path} {f : FilesAttributes} {l : Loaded × Text} :
    load disk root f = .ok l ↔ disk (root.join (path f.path)) = some l.1.source ∧
      l.1.file = root.join (path f.path) ∧ l.2 = f.fileFunction := by
  unfold load
  obtain ⟨⟨p, s⟩, t⟩ := l
  cases disk (root.join (path f.path)) with
  | none => simp
  | some x =>
    simp only [Except.ok.injEq, Prod.mk.injEq, Loaded.mk.injEq, Option.some.injEq]
    constructor
    · rintro ⟨⟨rfl, rfl⟩, rfl⟩; exact ⟨rfl, rfl, rfl⟩
    · rintro ⟨rfl, rfl, rfl⟩; exact ⟨⟨rfl, rfl⟩, rfl⟩

theorem loaded_path {n : Numbers} {parse : Text → Option Json} {disk : Path → Option Text} {file : Text} {job : JobFile}
    (h : fromFile n parse disk file = .ok job) : job.filePath = some (path file) := by
  unfold fromFile at h
  split at h
  · cases h
  · split at h
    · cases h
    · unfold validate at h
      split at h
      · cases h
      · cases h; rfl

/-- The project of a job file has in its views the files that the job file names, read beside it. -/
theorem c96_project (n : Numbers) (parse : Text → Option Json) (disk : Path → Option Text) (file : Text) (job : JobFile)
    (hjob : fromFile n parse disk file = .ok job) (given : Option Path) (entries : List (JobEntry Loaded))
    (hfiles : List.Forall₂ (ReadFrom disk file)
      (job.fields.filesAttributes.map fun f => (f.path, f.fileFunction)) entries) :
    ∃ project, toProject disk job given = .ok project ∧
      ViewOf entries .top displayOrder project.top ∧
      ViewOf entries .bottom displayOrder project.bottom ∧
      ∃ layers : List Text, layers.Pairwise (· < ·) ∧
        (∀ l, l ∈ layers ↔ ∃ e ∈ entries, ¬ typeIs e .profile ∧ meantFor e (.inner l)) ∧
        List.Forall₂ (fun l fs => ViewOf entries (.inner l) displayOrder fs) layers project.inner := by
  have hm : job.fields.filesAttributes.mapM (load disk (path file).parent) =
      .ok (entries.map fun e => (e.file, e.text)) := by
    generalize job.fields.filesAttributes = fs at hfiles
    induction fs generalizing entries with
    | nil => cases hfiles; rfl
    | cons f fs ih =>
      rw [List.map_cons] at hfiles
      obtain _ | ⟨h, ht⟩ := hfiles
      rename_i e es
      obtain ⟨⟨t, hb, h1, h2⟩, h3, -⟩ := h
      have hl : load disk (path file).parent f = .ok (e.file, e.text) := by
        rw [load_iff, beside_path hb]
        exact ⟨h2, h1, h3⟩
      rw [List.mapM_cons, hl, ih es ht]
      rfl
  refine ⟨Api.toProject (entries.map fun e => (e.file, e.text)), ?_, ?_⟩
  · unfold toProject
    rw [loaded_path hjob]
    simp only [Option.some_or, hm]
    rfl
  · apply Project.c51_views_partial
    intro e he
    obtain ⟨hlen, hget⟩ := List.forall₂_iff_get.1 hfiles
    obtain ⟨i, hi, rfl⟩ := List.getElem_of_mem he
    exact (hget i (hlen ▸ hi) hi).2.2

example : ∃ job, fromFile exampleNumbers (fun _ => some exampleJob) exampleDisk "out/board.gbrjob".toList = .ok job ∧
    List.Forall₂ (ReadFrom exampleDisk "out/board.gbrjob".toList)
      (job.fields.filesAttributes.map fun f => (f.path, f.fileFunction))
      [{ file := { file := path "out/top.gbr".toList, source := "M02*".toList }, text := "Copper,L1,Top".toList,
         parts := ["COPPER".toList, "L1".toList, "TOP".toList] }] := by
  refine ⟨_, rfl, .cons ⟨⟨"out/top.gbr".toList, ?_, rfl, ?_⟩, rfl, ?_⟩ .nil⟩
  · exact Beside.relative "out".toList "board.gbrjob".toList "top.gbr".toList (by decide) (by decide) (by decide)
      (by decide)
  · decide +kernel
  · refine ⟨by decide, by decide, by decide +kernel⟩

/-- A file that is missing is reported, and no project is made. -/
theorem c96_missing (n : Numbers) (parse : Text → Option Json) (disk : Path → Option Text) (file : Text) (job : JobFile)
    (hjob : fromFile n parse disk file = .ok job) (given : Option Path) (f : FilesAttributes)
    (hf : f ∈ job.fields.filesAttributes) (t : Text) (ht : Beside file f.path t) (hd : disk (path t) = none) :
    ∃ p, toProject disk job given = .error (.noFile p) ∧ disk p = none := by
  have : ∃ p, job.fields.filesAttributes.mapM (load disk (path file).parent) = .error (.noFile p) ∧ disk p = none := by
    generalize job.fields.filesAttributes = fs at hf
    induction fs with
    | nil => cases hf
    | cons g gs ih =>
      rw [List.mapM_cons]
      cases hg : disk ((path file).parent.join (path g.path)) with
      | none =>
        refine ⟨_, ?_, hg⟩
        simp only [load, hg]
        rfl
      | some s =>
        have hne : f ∈ gs := by
          rcases List.mem_cons.1 hf with rfl | h
          · rw [beside_path ht, hd] at hg; cases hg
          · exact h
        obtain ⟨p, hp, hpd⟩ := ih hne
        refine ⟨p, ?_, hpd⟩
        simp only [load, hg, hp]
        rfl
  obtain ⟨p, hp, hpd⟩ := this
  refine ⟨p, ?_, hpd⟩
  unfold toProject
  rw [loaded_path hjob]
  simp only [Option.some_or, hp]
  rfl

/-- Doubled slashes and `.` in paths do not matter; paths without them are the same only if their texts are. -/
theorem c96_spellings :
    (∀ dir rest : Text, dir ≠ [] → path (dir ++ '/' :: '/' :: rest) = path (dir ++ '/' :: rest)) ∧
    (∀ dir rest : Text, path (dir ++ '/' :: '.' :: '/' :: rest) = path (dir ++ '/' :: rest)) ∧
    ∀ ps qs : List Text, (∀ p ∈ ps ++ qs, '/' ∉ p ∧ p ≠ [] ∧ p ≠ ['.']) →
      path (['/'].intercalate ps) = path (['/'].intercalate qs) → ps = qs := by
  have key : ∀ ps : List Text, (∀ p ∈ ps, '/' ∉ p ∧ p ≠ [] ∧ p ≠ ['.']) → (path (['/'].intercalate ps)).parts = ps := by
    intro ps h
    induction ps with
    | nil => rfl
    | cons p ps ih =>
      have hp := h p List.mem_cons_self
      cases ps with
      | nil => simpa [List.intercalate] using parts_name hp.1 hp.2.1 hp.2.2
      | cons q qs =>
        have : ['/'].intercalate (p :: q :: qs) = p ++ '/' :: ['/'].intercalate (q :: qs) := by
          simp [List.intercalate]
        rw [this, parts_slash, parts_name hp.1 hp.2.1 hp.2.2, ih fun x hx => h x (List.mem_cons_of_mem _ hx)]
        rfl
  have hslash : ∀ rest : Text, (path ('/' :: rest)).parts = (path rest).parts := by
    intro rest
    simpa [path] using parts_slash [] rest
  refine ⟨fun dir rest hd => ?_, fun dir rest => ?_, fun ps qs h he => ?_⟩
  · have h1 := parts_slash dir ('/' :: rest)
    have h2 := parts_slash dir rest
    rw [hslash] at h1
    have h3 := absolute_slash dir ('/' :: rest) rest
    rw [Path.mk.injEq]
    exact ⟨h3, h1.trans h2.symm⟩
  · have h1 := parts_slash dir (['.'] ++ '/' :: rest)
    have h2 := parts_slash dir rest
    rw [parts_slash ['.'] rest] at h1
    have h3 := absolute_slash dir ('.' :: '/' :: rest) rest
    rw [Path.mk.injEq]
    refine ⟨h3, h1.trans ?_⟩
    have : (path ['.']).parts = [] := by decide +kernel
    rw [this, h2]
    rfl
  · rw [← key ps fun p hp => h p (List.mem_append_left _ hp), he, key qs fun p hp => h p (List.mem_append_right _ hp)]

/-- The documentation says that job files can also be made by constructing them; this always raises `TypeError`, for
every valid job, so that the path that `to_project` accepts for this case is never used. -/
theorem c96_false_constructed (n : Numbers) (j : Json) (files : List (Text × Text)) (h : IsJob n j files) :
    validate n none j = .error .type := by
  obtain ⟨f, hf, -⟩ := fields_iff.2 h
  simp [validate, hf]

end Verif.Props.JobFile
