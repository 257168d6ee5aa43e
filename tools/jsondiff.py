#!/usr/bin/env python3
"""Differential test of lean/Verif/Model/JsonText.lean against CPython's json module (the standard library, not the project's code).
Usage: python3 tools/jsondiff.py SEED   (needs a built lean/ directory)"""
import subprocess, tempfile, os, sys
GEN = r"""import json,random,base64
random.seed(int(__import__('sys').argv[1]))
class Num(str): pass
def rstr():
    return ''.join(random.choice([ 'a','b','"','\\','\n','\x7f','\x1f','é','\u2028','😀','\ud800','\udc00','0',' ','/','\t']) for _ in range(random.randint(0,4)))
def rval(d):
    k=random.randint(0,8 if d>0 else 5)
    if k==0: return None
    if k==1: return random.random()<.5
    if k==2: return random.choice([0,-1,12,10**20,-5])
    if k==3: return random.choice([0.5,-1e-7,1e22,float('nan'),float('inf'),-float('inf'),1.25e+30,0.1])
    if k in(4,5): return rstr()
    if k in(6,): return [rval(d-1) for _ in range(random.randint(0,3))]
    return {rstr():rval(d-1) for _ in range(random.randint(0,3))}
def canon(v):
    # structural text independent of dump
    if v is None: return 'N'
    if v is True: return 'T'
    if v is False: return 'F'
    if isinstance(v,Num): return 'n('+str.__str__(v)+')'
    if isinstance(v,str): return 's('+','.join(str(ord(c)) for c in v)+')'
    if isinstance(v,list): return 'l('+';'.join(map(canon,v))+')'
    if isinstance(v,dict): return 'd('+';'.join('('+','.join(str(ord(c)) for c in k)+')'+canon(v[k]) for k in sorted(v))+')'
rows=[]
for i in range(3000):
    v=rval(3)
    t=json.dumps(v,sort_keys=True,indent=2)
    m=random.randint(0,5)
    if m==1: t=json.dumps(v)
    if m==2: t=json.dumps(v,ensure_ascii=False)
    if m>=3:
        for _ in range(random.randint(1,3)):
            j=random.randint(0,len(t))
            op=random.randint(0,2)
            ch=random.choice('{}[],:"\\u0123dD89cC. \n-+eEtrufalsn\x01/\x00NI')
            if op==0: t=t[:j]
            elif op==1: t=t[:j]+ch+t[j:]
            else: t=t[:j]+ch+t[j+1:]
    try: 
        t.encode('utf-8')
    except UnicodeEncodeError: continue
    try:
        w=json.loads(t,parse_int=Num,parse_float=Num,parse_constant=Num)
        out='ok '+canon(w)
        d=json.dumps(json.loads(t),sort_keys=True,indent=2)
    except json.JSONDecodeError: out='err'
    if m==0: out=out+'#D'
    rows.append((t,out))
with open('/tmp/scr/jtests.txt','w') as f:
    for t,o in rows: f.write(' '.join(str(ord(c)) for c in t)+'|'+o+'\n')
print(len(rows),sum(o!='err' for _,o in rows))
"""
LEAN = r"""import Verif.Model.JsonText
open Dec.Text
def cs (s : PyStr) : String := ",".intercalate (s.map toString)
partial def canon : Val → String
  | .null => "N" | .bool true => "T" | .bool false => "F"
  | .num l => "n(" ++ String.ofList l ++ ")"
  | .str s => "s(" ++ cs s ++ ")"
  | .list l => "l(" ++ ";".intercalate (l.map canon) ++ ")"
  | .dict l => "d(" ++ ";".intercalate (l.map fun e => "(" ++ cs e.1 ++ ")" ++ canon e.2) ++ ")"
def main : IO Unit := do
  let ls ← IO.FS.lines "/tmp/scr/jtests.txt"
  let mut bad := 0
  let mut nd := 0
  for l in ls do
    let a := l.splitOn "|"
    let t := ((a[0]!.splitOn " ").filter (· ≠ "")).map fun s => Char.ofNat s.toNat!
    let exp0 := "|".intercalate (a.drop 1)
    let isD := exp0.endsWith "#D"
    let exp := if isD then (exp0.dropEnd 2).toString else exp0
    if isD then
      nd := nd + 1
      match load t with
      | .ok v => if dump v ≠ t then IO.println s!"dump differs {repr (String.ofList t)}"
      | .error _ => IO.println "dump err"
    let got := match load t with | .ok v => "ok " ++ canon v | .error _ => "err"
    if got ≠ exp then
      bad := bad + 1
      if bad < 10 then IO.println s!"{repr (String.ofList t)}\n exp {exp}\n got {got}"
  IO.println s!"bad {bad} of {ls.size} dumps {nd}"
#eval main
"""
d = tempfile.mkdtemp()
here = os.path.dirname(os.path.abspath(__file__))
t = os.path.join(d, 'jtests.txt')
open(os.path.join(d, 'gen.py'), 'w').write(GEN.replace('/tmp/scr/jtests.txt', t))
open(os.path.join(d, 'run.lean'), 'w').write(LEAN.replace('/tmp/scr/jtests.txt', t))
subprocess.check_call([sys.executable, os.path.join(d, 'gen.py'), sys.argv[1] if len(sys.argv) > 1 else '1'])
subprocess.check_call(['lake', 'env', 'lean', os.path.join(d, 'run.lean')], cwd=os.path.join(here, '..', 'lean'))
