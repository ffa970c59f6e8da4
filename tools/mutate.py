#!/usr/bin/env python3
"""Mutation tests: edit one definition of the model in a scratch copy, rebuild, see which theorems fail.

usage: mutate.py gen FILES...            print candidate mutants as JSON lines
       mutate.py run MUTANTS LOG         run them in a scratch copy (default /tmp/mut/lean) and append to LOG
With TIGHTENED=1 the mutants are survivors of an earlier run and the theorems that now fail are logged as tightened.
"""
import json, os, re, subprocess, sys, time
ROOT = os.path.dirname(os.path.dirname(os.path.abspath(__file__)))
SCRATCH = os.environ.get('SCRATCH', '/tmp/mut/lean')
DECL = re.compile(r'^(?:@\[[^\]]*\] )?(?:private )?(?:def|abbrev|theorem|structure|inductive|instance|example|mutual|end|namespace|open|section|/-)', re.M)
NAME = re.compile(r'^(?:@\[[^\]]*\] )?(?:private )?(def|abbrev|theorem|structure|inductive|instance)\s+([^\s:({\[]+)', re.M)

def blocks(text):
    """(kind, name, start, end) of the top-level declarations, docstrings excluded."""
    starts = [m.start() for m in DECL.finditer(text)] + [len(text)]
    out = []
    for a, b in zip(starts, starts[1:]):
        m = NAME.match(text, a)
        if m: out.append((m.group(1), m.group(2), a, b))
    return out

def code_spans(s):
    """strip comments and strings: list of (start, end) of code"""
    out, i, last = [], 0, 0
    for m in re.finditer(r'--[^\n]*|/-.*?-/|"(?:[^"\\]|\\.)*"', s, re.S):
        out.append((last, m.start())); last = m.end()
    out.append((last, len(s)))
    return out

OPS = [(r' < ', ' ≤ '), (r' ≤ ', ' < '), (r' > ', ' ≥ '), (r' ≥ ', ' > '), (r' ∧ ', ' ∨ '), (r' ∨ ', ' ∧ '), (r' && ', ' || '), (r' \|\| ', ' && '),
       (r'\.take\b', '.drop'), (r'\.drop\b', '.take'), (r'\bdropWhile\b', 'takeWhile'), (r'\btakeWhile\b', 'dropWhile'),
       (r' \+ ', ' - '), (r' - ', ' + '), (r' ≠ ', ' = '), (r'(?<=if )([^:\n]*?) = ', None), (r'\.panic\b', '.err "mutant"'), (r'\.err (?:"[^"]*"|[a-z]+)', '.panic'),
       (r'\bnot found\b', 'xx'), (r'\btrue\b', 'false'), (r'\bfalse\b', 'true'), (r'\.isPrefixOf\b', '.isSuffixOf'), (r' &&& ', ' ||| '), (r' \|\|\| ', ' &&& '),
       (r' >>> ', ' <<< '), (r' <<< ', ' >>> '), (r' \^\^\^ ', ' ||| '), (r'\.isSome\b', '.isNone'), (r'\btrimNul\b', 'id'), (r'\bheadD\b', 'getLastD'),
       (r'!', ''), (r'\btoInt8\.', '.')]

def gen(path, maxper):
    rel = os.path.relpath(path, ROOT + '/lean')
    text = open(path).read()
    for kind, name, a, b in blocks(text):
        if kind not in ('def', 'abbrev'): continue
        body0 = text[a:b]
        k = body0.find(':=') if ':=' in body0 else 0
        p = body0.find('\n  |')
        if 0 < p and (k == 0 or p < k): k = p
        muts = []
        def add(i, j, new, what):
            if body0[i:j] != new: muts.append((a + i, a + j, new, what))
        spans = code_spans(body0)
        inside = lambda i: i >= k and any(x <= i < y for x, y in spans)
        for m in re.finditer(r'(?<![\w.])(0x[0-9A-Fa-f]+|\d+)(?![\w])', body0):
            if not inside(m.start()): continue
            t = m.group(1)
            n = int(t, 0) + 1
            add(m.start(), m.end(), hex(n) if t.startswith('0x') else str(n), f'{t} → {n}')
        for pat, rep in OPS:
            if rep is None: continue
            for m in re.finditer(pat, body0):
                if inside(m.start()): add(m.start(), m.end(), rep, f'`{m.group(0).strip()}` → `{rep.strip()}`')
        for m in re.finditer(r'\bif ([^\n]*?) then\b', body0):
            if inside(m.start()) and ':' not in m.group(1): add(m.start(1), m.end(1), f'¬ ({m.group(1)})', f'negated condition `{m.group(1)}`')
        # field swaps
        fs = re.findall(r'\b([a-z]\w{0,2})\.([a-z]\w+)\b', body0[k:])
        names = list(dict.fromkeys(fs))
        for m in re.finditer(r'\b([a-z]\w{0,2})\.([a-z]\w+)\b', body0):
            if not inside(m.start()): continue
            c = [f for v, f in names if v == m.group(1)]
            if m.group(2) in c and len(c) > 1:
                f2 = c[(c.index(m.group(2)) + 1) % len(c)]
                add(m.start(2), m.end(2), f2, f'`{m.group(0)}` → `{m.group(1)}.{f2}`')
        # dropped list element / statement lines
        for m in re.finditer(r'^    (?:\[ )?(w\w+ [^\n]*,)\n', body0, re.M):
            add(m.start(1), m.end(1), '', f'dropped `{m.group(1)}`')
        # swapped arguments
        for m in re.finditer(r'(?<=[\w)] )([a-z]\w*) ([a-z]\w*)(?=[ )\n,])', body0):
            kw = {'then', 'else', 'fun', 'if', 'match', 'with', 'let', 'do', 'return', 'from', 'by', 'in'}
            if inside(m.start()) and m.group(1) != m.group(2) and not {m.group(1), m.group(2)} & kw:
                add(m.start(), m.end(), f'{m.group(2)} {m.group(1)}', f'swapped `{m.group(0)}`')
        # dropped updates
        for m in re.finditer(r'\{ (\w+) with ([^{}\n]*) \}', body0):
            if inside(m.start()): add(m.start(), m.end(), m.group(1), f'dropped the update `{m.group(2)}`')
        # string change
        for m in re.finditer(r'ascii "((?:[^"\\]|\\.)+)"', body0):
            if m.start() >= k: add(m.start(1), m.end(1), m.group(1) + 'x', f'"{m.group(1)}" → "{m.group(1)}x"')
        if maxper and len(muts) > maxper:
            step = len(muts) / maxper
            muts = [muts[int(i * step)] for i in range(maxper)]
        for i, j, new, what in muts:
            line = text.count('\n', 0, i) + 1
            yield {'file': rel, 'def': name, 'start': i, 'end': j, 'old': text[i:j], 'new': new, 'what': what, 'line': line}

def index():
    """declarations of the library and their textual references"""
    decl, where = {}, {}
    for d, _, fs in os.walk(ROOT + '/lean/Verif'):
        for f in fs:
            if not f.endswith('.lean'): continue
            p = os.path.join(d, f); t = open(p).read(); rel = os.path.relpath(p, ROOT + '/lean')
            bl = blocks(t)
            where[rel] = [(t.count('\n', 0, a) + 1, t.count('\n', 0, b), kind, n) for kind, n, a, b in bl]
            for kind, n, a, b in bl: decl.setdefault(n, set()).update(re.findall(r'[\w₀-₉\'.]+', t[a:b]))
    return decl, where

def run(mutfile, log):
    decl, where = index()
    short = {}
    for n in decl:
        short.setdefault(n.split('.')[-1], set()).add(n)
    props = {}
    for l in open(ROOT + '/properties.jsonl'):
        o = json.loads(l); props[o['id']] = o['title']
    users = {}
    for n, toks in decl.items():
        for t in toks:
            for x in short.get(t.split('.')[-1], ()):
                if x != n: users.setdefault(x, set()).add(n)
    def dependents(names):
        seen, todo = set(), list(names)
        while todo:
            x = todo.pop()
            if x in seen: continue
            seen.add(x); todo += users.get(x, ())
        return sorted({x.split('_')[0] for x in seen if re.match(r'C\d+_', x)})
    for l in open(mutfile):
        m = json.loads(l)
        p = f'{SCRATCH}/{m["file"]}'
        src = f'{ROOT}/lean/{m["file"]}'
        text = open(src).read()
        if text[m['start']:m['end']] != m['old']:
            print('stale', m); continue
        mut = text[:m['start']] + m['new'] + text[m['end']:]
        open(p, 'w').write(mut)
        t0 = time.time()
        try:
            r = subprocess.run(['lake', 'build'], cwd=SCRATCH, capture_output=True, text=True, timeout=int(os.environ.get('MUT_TIMEOUT', 900)))
            out = r.stdout + r.stderr; timeout = False
        except subprocess.TimeoutExpired as e:
            subprocess.run(['pkill', '-f', 'lean.*' + SCRATCH]); out = (e.stdout or b'').decode() if isinstance(e.stdout, bytes) else (e.stdout or ''); timeout = True; r = None
        wall = round(time.time() - t0)
        open(p, 'w').write(text)
        errs = re.findall(r'error: (Verif/[\w/]+\.lean):(\d+):', out)
        failed, invalid = [], False
        for f, ln in errs:
            ln = int(ln)
            hit = [(k, n) for a, b, k, n in where.get(f, []) if a <= ln <= b]
            kind, n = hit[-1] if hit else ('example', f'example at {f}:{ln}')
            if f == m['file'] and kind != 'theorem': invalid = True
            if n not in failed: failed.append(n)
        if invalid: status = 'invalid'
        elif timeout and not failed: status = 'timeout'
        elif r is not None and r.returncode == 0: status = 'SURVIVED'
        elif failed: status = 'killed'
        else: status = 'odd'
        direct = sorted({n.split('_')[0] for n in failed if re.match(r'C\d+_', n)})
        claims = direct or dependents(failed) if failed else dependents([m['def']])
        rec = {'status': status, 'definition': f'{m["file"]}:{m["line"]} {m["def"]}', 'edit': m['what'], 'claim': '; '.join(f'{c} {props.get(c, "")}' for c in claims[:6]) + (' …' if len(claims) > 6 else ''),
               'failed': failed[:12], 'tightened': failed[:12] if os.environ.get('TIGHTENED') else []}
        with open(os.environ.get('RAW', '/tmp/mut/raw.jsonl'), 'a') as fh: fh.write(json.dumps(dict(rec, wall=wall, mutant=m), ensure_ascii=False) + '\n')
        if status == 'killed':
            with open(log, 'a') as fh: fh.write(json.dumps({k: rec[k] for k in ('definition', 'edit', 'claim', 'failed', 'tightened')}, ensure_ascii=False) + '\n')
        print(status, m['file'], m['def'], m['what'], failed[:3], f'{wall}s', flush=True)

if __name__ == '__main__':
    if sys.argv[1] == 'gen':
        mx = int(os.environ.get('MAXPER', 0))
        for f in sys.argv[2:]:
            for x in gen(os.path.abspath(f), mx): print(json.dumps(x, ensure_ascii=False))
    else: run(sys.argv[2], sys.argv[3])
