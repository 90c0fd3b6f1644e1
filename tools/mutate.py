#!/usr/bin/env python3
"""Seeded-bug rounds.  usage: mutate.py ROUND.json
ROUND.json is a list of {"file","definition","old","new","edit","claim","breaks":[property ids]}.
Each edit is applied to a scratch copy of the Lake project (/tmp/mut), which is rebuilt; the declarations whose
proofs fail are found from the compiler's messages, and the property theorems that rest on them from the dependency
graph of the unedited project.  One JSON line per attempt is appended to /verif/seeded/LOG.jsonl."""
import json, os, re, subprocess, sys
SRC, MUT, LOG = '/verif/lean', '/tmp/mut', '/verif/seeded/LOG.jsonl'
DEPS = '''import Verif
import Lean.Elab.Command
open Lean Elab Command
run_cmd do
  let env ← getEnv
  let mut out : Array String := #[]
  for (n, ci) in env.constants.map₁.toList do
    if (`Vectory).isPrefixOf n then
      let mut s : List Name := ci.type.getUsedConstants.toList
      if let some v := ci.value? (allowOpaque := true) then s := v.getUsedConstants.toList ++ s
      let t := s.filter (fun m => (`Vectory).isPrefixOf m) |>.eraseDups
      out := out.push (toString n ++ "\\t" ++ " ".intercalate (t.map toString))
  IO.FS.writeFile "/tmp/deps.txt" ("\\n".intercalate out.toList)
'''
def sh(cmd, **k): return subprocess.run(cmd, shell=True, capture_output=True, text=True, **k)
def sync():
    os.makedirs(MUT, exist_ok=True)
    sh(f'rsync -a --delete {SRC}/ {MUT}/ || (rm -rf {MUT} && cp -a {SRC} {MUT})')
def deps():
    open('/tmp/deps.lean', 'w').write(DEPS)
    r = sh('lake env lean /tmp/deps.lean', cwd=SRC); assert r.returncode == 0, r.stdout + r.stderr
    g = {}
    for l in open('/tmp/deps.txt'):
        a, _, b = l.rstrip('\n').partition('\t'); g[a] = b.split()
    return g
def closure(g, n, memo):
    seen, st = set(), [n]
    while st:
        x = st.pop()
        if x in seen: continue
        seen.add(x); st += g.get(x, [])
    return seen
DECL = re.compile(r'^\s*(?:@\[[^\]]*\]\s*)?(?:private |protected |noncomputable )*(theorem|def|lemma|instance|example|structure|inductive|abbrev)\s*([^\s:({\[]*)')
def declAt(path, line):
    """the declaration around a line, and the line where it starts"""
    ls = open(path).read().split('\n')[:line]
    ns, last, prev, at = [], None, None, 0
    for i, l in enumerate(ls):
        m = re.match(r'namespace\s+(\S+)', l)
        if m: ns.append(m.group(1))
        m = re.match(r'end\s+(\S+)', l)
        if m and ns: ns.pop()
        m = DECL.match(l)
        if m and not l.startswith(' '):
            at = i
            if m.group(1) == 'example': last = f'example {i+1} after ' + str(prev)
            else:
                last = '.'.join(ns + [m.group(2)]); prev = last
    return last, at
def admit(path, k):
    ls = open(path).read().split('\n')
    kind = DECL.match(ls[k]).group(1)
    if kind not in ('theorem', 'lemma', 'example'): return False
    j = k + 1
    while j < len(ls) and (ls[j] == '' or ls[j].startswith((' ', '|', '·'))): j += 1
    text, depth, cut = '\n'.join(ls[k:j]), 0, None
    for i, ch in enumerate(text):
        if ch in '([{⟨': depth += 1
        elif ch in ')]}⟩': depth -= 1
        elif depth == 0 and text.startswith(':=', i): cut = i; break
    if cut is None: return False
    ls[k:j] = (text[:cut] + ':= by sor' + 'ry').split('\n') + ['']
    open(path, 'w').write('\n'.join(ls)); return True
def main():
    rnd = json.load(open(sys.argv[1]))
    sync(); g = deps()
    props = sorted(n for n in g if re.match(r'Vectory\.(?:[A-Za-z0-9]+\.)?C\d\d_[A-Za-z0-9_]*$', n))
    memo = {p: closure(g, p, {}) for p in props}
    for m in rnd:
        p = f"{MUT}/{m['file']}"
        src = open(p).read()
        if src.count(m['old']) != 1:
            print('SKIP (pattern occurs %d times): %s' % (src.count(m['old']), m['edit'])); continue
        open(p, 'w').write(src.replace(m['old'], m['new']))
        failed, touched = [], {p: src}
        for _ in range(8):                       # a failed proof is admitted in the scratch copy, to see what else fails
            r = sh('lake build 2>&1', cwd=MUT)
            new = {}
            for l in r.stdout.split('\n'):
                e = re.match(r'error: (Verif/\S+\.lean):(\d+):\d+', l)
                if e:
                    d, k = declAt(f'{MUT}/{e.group(1)}', int(e.group(2)))
                    if d and d not in failed: new.setdefault(e.group(1), {})[k] = d
            if not new: break
            stuck = True
            for f, ks in new.items():
                path = f'{MUT}/{f}'; touched.setdefault(path, open(path).read())
                for k in sorted(ks, reverse=True):
                    failed.append(ks[k])
                    if admit(path, k): stuck = False
            if stuck: break
        thms = [q for q in props if any(f in memo[q] for f in failed)]
        ids = sorted({re.match(r'Vectory\.(?:[A-Za-z0-9]+\.)?(C\d\d)', q).group(1) for q in thms} |
                     {re.search(r'(C\d\d)_', f).group(1) for f in failed if re.search(r'(C\d\d)_', f)})
        missed = [b for b in m['breaks'] if b not in ids]
        rec = {'definition': m['definition'], 'edit': m['edit'], 'claim': m['claim'], 'breaks': m['breaks'],
               'failed_declarations': failed, 'failed': thms, 'survived_though_broken': missed, 'tightened': []}
        open(LOG, 'a').write(json.dumps(rec, ensure_ascii=False) + '\n')
        print(('CAUGHT ' if failed and not missed else 'CHECK  '), m['definition'], '|', m['edit'], '|', failed[:4], '| missed', missed, flush=True)
        for q, t in touched.items(): open(q, 'w').write(t)
    sh('rm -rf ' + MUT)
if __name__ == "__main__": main()
