#!/usr/bin/env python3
"""Systematic mutants of the model.  usage: automutate.py OUT.jsonl [SEED] [MAX] [FILES...]
Small textual changes are applied, one at a time, to the definitions of lean/Verif/Model in a scratch copy (/tmp/am), which is
rebuilt.  A mutant that does not compile as a program is skipped; one that breaks a proof or example is caught; one with which everything
builds is a survivor, to be looked at by hand."""
import json, os, random, re, subprocess, sys, signal
SRC, MUT = '/verif/lean', '/tmp/am'
sys.path.insert(0, os.path.dirname(__file__))
from mutate import declAt
def sh(c): return subprocess.run(c, shell=True, capture_output=True, text=True)
OPS = [
 (r' \+ 1\b', '', 'plus one dropped'), (r' - 1\b', '', 'minus one dropped'), (r' < ', ' ≤ ', '< to ≤'), (r' ≤ ', ' < ', '≤ to <'),
 (r' > ', ' ≥ ', '> to ≥'), (r' ≥ ', ' > ', '≥ to >'), (r' && ', ' || ', 'and to or'), (r' \|\| ', ' && ', 'or to and'),
 (r'\btrue\b', 'false', 'true to false'), (r'\bfalse\b', 'true', 'false to true'), (r' = 0\b', ' = 1', '0 to 1'), (r' = ', ' ≠ ', '= to ≠ '),
 (r' ≠ ', ' = ', '≠ to ='), (r'\.reverse\b', '', 'reverse dropped'), (r'\btake\b', 'drop', 'take to drop'), (r'\bdrop\b', 'take', 'drop to take'),
 (r' \+ ', ' - ', '+ to -'), (r' - ', ' + ', '- to +'), (r' \* ', ' + ', '* to +'), (r' / ', ' * ', '/ to *'), (r' % ', ' / ', '% to /'),
 (r'\.set\b', '.erase', 'set'), (r'\bif (?!let|h)([^\n]*?) then', r'if ¬ (\1) then', 'condition negated'), (r'\.fst\b', '.snd', 'fst'),
 (r'(?<=[(\[ ])!(?=[\w(])', '', 'negation dropped'), (r'\b(\d+)\b', lambda m: str(int(m.group(1)) + 1), 'constant plus one'),
 (r'\bmin\b', 'max', 'min'), (r'\bmax\b', 'min', 'max'), (r'\bany\b', 'all', 'any'), (r'\ball\b', 'any', 'all'), (r'\.getLast\b', '.head', 'last'),
 (r'\bsome \(some ([^)]*)\)', r'some none', 'error dropped'), (r', some e\b', ', none', 'error dropped'), (r'\.1\b', '.2', 'first to second'), (r'\.2\b', '.1', 'second to first'),
 (r'(\w+) \+\+ (\w+)', r'\2 ++ \1', 'append swapped'), (r'(\w+) \+\+ \[', r'\1 ++ \1 ++ [', 'append doubled'), (r'\.dropLast\b', '', 'dropLast dropped'), (r'\.filter \(', '.filter (fun _ => true) |>.filter (', 'noop'),
]
def code_mask(s):
    """True where s is code (not comment)"""
    m = [True] * len(s); i = 0; d = 0
    while i < len(s):
        if s.startswith('/-', i): d += 1; m[i] = m[i+1] = False; i += 2; continue
        if s.startswith('-/', i) and d: d -= 1; m[i] = m[i+1] = False; i += 2; continue
        if d: m[i] = False
        elif s.startswith('--', i):
            while i < len(s) and s[i] != '\n': m[i] = False; i += 1
            continue
        i += 1
    return m
def fields(s, m):
    """drop one assignment of a record update; call arguments swapped"""
    for x in re.finditer(r'\{ (\w[\w.]*) with ([^{}]*?) \}', s):
        parts = re.split(r', (?=\w+ :=)', x.group(2))
        for k in range(len(parts)):
            rest = parts[:k] + parts[k+1:]
            new = '{ ' + x.group(1) + ' with ' + ', '.join(rest) + ' }' if rest else x.group(1)
            yield x.start(), x.end(), new, 'update dropped: ' + parts[k].split(' :=')[0]
    for x in re.finditer(r'(?<=[( ])([a-z]\w*(?:\.\w+)*) ([a-z]\w*(?:\.\w+)?) ([a-z]\w*(?:\.\w+)?)(?=[),\s])', s):
        if x.group(1) in ('if','then','else','match','with','fun','let','do','def','have','show','from','in','end','namespace','variable','import','open','deriving','inductive','structure','where','theorem','return'): continue
        yield x.start(2), x.end(3), x.group(3) + ' ' + x.group(2), 'arguments swapped'
def sites(path):
    s = open(path).read(); m = code_mask(s); out = []
    start = s.find('namespace')
    for pat, rep, name in OPS:
        if name == 'noop': continue
        for x in re.finditer(pat, s):
            if x.start() < start or not all(m[x.start():x.end()]): continue
            new = x.expand(rep) if isinstance(rep, str) else rep(x)
            out.append((x.start(), x.end(), new, name))
    for a, b, new, name in fields(s, m):
        if a >= start and all(m[a:b]): out.append((a, b, new, name))
    return s, out
def build():
    p = subprocess.Popen('nice -n 10 lake build', shell=True, cwd=MUT, stdout=subprocess.PIPE, stderr=subprocess.STDOUT, text=True, start_new_session=True)
    err = None
    for l in p.stdout:
        x = re.match(r'error: (Verif/\S+?\.lean):(\d+):\d+:(.*)', l)
        if x:
            err = (x.group(1), int(x.group(2)), x.group(3).strip())
            os.killpg(p.pid, signal.SIGKILL); break
    p.wait()
    if err is None and p.returncode != 0: err = ('?', 0, 'build failed')
    return err
def main():
    out, seed, mx = sys.argv[1], int(sys.argv[2]) if len(sys.argv) > 2 else 1, int(sys.argv[3]) if len(sys.argv) > 3 else 10**9
    files = sys.argv[4:] or sorted(os.listdir(SRC + '/Verif/Model'))
    files = [f for f in files if f not in ('Errors.lean',)]
    sh(f'rm -rf {MUT} /tmp/am_src; cp -a {SRC} {MUT}; cp -a {SRC} /tmp/am_src')
    done = set()
    if os.path.exists(out):
        for l in open(out):
            j = json.loads(l); done.add((j['file'], j['at'], j['new']))
    todo = []
    for f in files:
        s, st = sites('/tmp/am_src/Verif/Model/' + f)
        for x in st: todo.append((f, s) + x)
    random.Random(seed).shuffle(todo)
    print(len(todo), 'mutants', flush=True)
    n = 0
    for f, s, a, b, new, name in todo:
        if n >= mx: break
        if (f, a, new) in done: continue
        n += 1
        p = f'{MUT}/Verif/Model/{f}'
        open(p, 'w').write(s[:a] + new + s[b:])
        e = build()
        line = s[:a].count('\n') + 1
        d = declAt('/tmp/am_src/Verif/Model/' + f, line)[0]
        ctx = s[s.rfind('\n', 0, a)+1:s.find('\n', b)].strip()
        if e is None: st = 'SURVIVED'
        elif e[0] == f'Verif/Model/{f}': st = 'invalid'
        elif e[0].startswith('Verif/Model/'): st = 'invalid'
        elif e[0] == '?': st = 'unknown'
        else: st = 'caught'
        by = declAt('/tmp/am_src/' + e[0], e[1])[0] if st == 'caught' else None
        j = {'file': f, 'at': a, 'line': line, 'def': d, 'edit': name, 'old': s[a:b], 'new': new, 'ctx': ctx, 'status': st, 'by': by}
        open(out, 'a').write(json.dumps(j, ensure_ascii=False) + '\n')
        if st not in ('invalid',): print(st, f, line, d, '|', name, '|', repr(s[a:b]), '->', repr(new), '|', ctx[:90], '|', by, flush=True)
        sh(f'rm -rf {MUT}/Verif {MUT}/.lake/build; cp -a /tmp/am_src/Verif {MUT}/Verif; cp -a /tmp/am_src/.lake/build {MUT}/.lake/build')
if __name__ == "__main__": main()
