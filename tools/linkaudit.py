"""Audits the theorems Cnn_generated_*: which mention no generated definition (a name that resolved to the model), and
which generated definitions are reached by no such theorem.  Needs a built lean/.  Usage: linkaudit.py"""
import subprocess,os,tempfile,re
here=os.path.dirname(os.path.abspath(__file__))
SRC=r"""
import Verif
open Lean
def linkC (env : Environment) (n : Name) : Bool :=
  match env.getModuleIdxFor? n with
  | some i => let m := (env.header.moduleNames[i.toNat]!).toString; "Verif.Link".isPrefixOf m
  | none => false
def modOf (env : Environment) (n : Name) : String :=
  match env.getModuleIdxFor? n with
  | some i => (env.header.moduleNames[i.toNat]!).toString
  | none => ""
partial def go (env : Environment) (seen : NameSet) (n : Name) : NameSet := Id.run do
  if seen.contains n then return seen
  let mut s := seen.insert n
  if linkC env n then
    match env.find? n with
    | some ci =>
      let used := ci.type.getUsedConstants ++ (match ci with | .defnInfo d => d.value.getUsedConstants | _ => #[])
      for c in used do s := go env s c
    | none => pure ()
  return s
run_cmd do
  let env ← getEnv
  let mut out := ""
  for (n, ci) in env.constants.map₁.toList do
    let str := n.toString
    if str.startsWith "Verif.C" && (str.splitOn "generated").length > 1 && (match ci with | .thmInfo _ => true | _ => false) && (str.splitOn "._").length == 1 then
      let mut s : NameSet := {}
      for c in ci.type.getUsedConstants do s := go env s c
      let gens := s.toList.filter fun c => ("Verif.Gen").isPrefixOf (modOf env c)
      let models := s.toList.filter fun c => let m := modOf env c; ("Verif.").isPrefixOf m && !("Verif.Gen").isPrefixOf m && !("Verif.Link").isPrefixOf m && (match env.find? c with | some (.defnInfo _) => true | _ => false)
      out := out ++ s!"{str}\n   GEN {gens.length}: {gens.take 12}\n   MODEL {models}\n"
  IO.FS.writeFile "OUTFILE" out
partial def goA (env : Environment) (seen : NameSet) (n : Name) : NameSet := Id.run do
  if seen.contains n then return seen
  let mut s := seen.insert n
  let m := modOf env n
  if "Verif.Link".isPrefixOf m || "Verif.Gen".isPrefixOf m then
    match env.find? n with
    | some ci =>
      let used := ci.type.getUsedConstants ++ (match ci with | .defnInfo d => d.value.getUsedConstants | _ => #[])
      for c in used do s := goA env s c
    | none => pure ()
  return s
run_cmd do
  let env ← getEnv
  let mut s : NameSet := {}
  let mut gens : Array Name := #[]
  for (n, ci) in env.constants.map₁.toList do
    let str := n.toString
    if str.startsWith "Verif.C" && (str.splitOn "generated").length > 1 && (match ci with | .thmInfo _ => true | _ => false) then
      for c in ci.type.getUsedConstants do s := goA env s c
    if "Verif.Gen".isPrefixOf (modOf env n) && (match ci with | .defnInfo _ => true | _ => false) && !n.isInternal then gens := gens.push n
  let miss := gens.filter fun g => !s.contains g
  IO.println (String.intercalate "\n" ((miss.map toString).qsort (· < ·)).toList)
"""
with tempfile.TemporaryDirectory() as d:
    out=d+'/out.txt'
    open(d+'/Audit.lean','w').write(SRC.replace('OUTFILE',out))
    p=subprocess.run(['lake','env','lean',d+'/Audit.lean'],cwd=here+'/../lean',capture_output=True,text=True)
    if p.returncode: print(p.stdout,p.stderr); raise SystemExit(1)
    txt=open(out).read().split('\n')
    n=0
    for i,l in enumerate(txt):
        if 'GEN ' in l:
            n+=1
            if 'GEN 0:' in l: print('NO GENERATED CODE IN',txt[i-1].strip())
    print(n,'theorems audited')
    print('Generated definitions reached by none:')
    for l in p.stdout.split('\n'):
        if l and not re.search(r'casesOn|\.rec|noConfusion|ctorIdx|match_|toCtorIdx|ofNat|_sunfold|brecOn|recOn|\.below|sizeOf|inst|ctorElim|\.elim$',l): print(' ',l)
