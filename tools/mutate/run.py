#!/usr/bin/env python3
"""Seed realistic bugs into a scratch copy of the model and see which theorems stop proving.

usage: run.py [mutant ids...]      (default: every mutant of mutants.py not yet in seeded/LOG.jsonl)

For each mutant: copy of /verif/lean in /tmp/mut/lean, apply the edit, elaborate every module downstream of the edited file (going on
after errors, keepgoing.txt), map error positions to declarations, take as failed every property theorem that depends (through the dependency graph of the unmutated project) on a declaration that no
longer compiles, evaluate the conformance checks of battery.txt on the mutated model to see which claims are really false now, and
append a line to seeded/LOG.jsonl.  A claim that is false while none of its theorems failed is reported as WEAK.
"""
import json, os, re, subprocess, sys, shutil, collections, tempfile
from concurrent.futures import ThreadPoolExecutor, FIRST_COMPLETED, wait
HERE = os.path.dirname(os.path.abspath(__file__))
ROOT = os.path.dirname(os.path.dirname(HERE))
MUT = os.environ.get('MUT', '/tmp/mut')
sys.path.insert(0, HERE)
from mutants import MUTANTS
LOG = os.path.join(ROOT, 'seeded', 'LOG.jsonl')

def sh(cmd, timeout=3000):
    p = subprocess.run(cmd, shell=True, cwd=MUT + '/lean', stdout=subprocess.PIPE, stderr=subprocess.STDOUT, text=True, timeout=timeout)
    return p.returncode, p.stdout

def setup():
    os.makedirs(MUT, exist_ok=True)
    sh0 = subprocess.run(f'mkdir -p {MUT}/lean && rsync -a --delete {ROOT}/lean/ {MUT}/lean/ 2>/dev/null || (rm -rf {MUT}/lean && cp -r {ROOT}/lean {MUT}/lean)', shell=True)
    rc, out = sh('lake build 2>&1')
    assert rc == 0, out[-3000:]
    shutil.copy(HERE + '/deps.txt', MUT + '/Deps.lean')
    shutil.copy(HERE + '/battery.txt', MUT + '/Battery.lean')
    shutil.copy(HERE + '/battery_heap.txt', MUT + '/BatteryHeap.lean')
    shutil.copy(HERE + '/battery_unwind.txt', MUT + '/BatteryUnwind.lean')
    shutil.copy(HERE + '/battery_whole.txt', MUT + '/BatteryWhole.lean')
    shutil.copy(HERE + '/keepgoing.txt', MUT + '/KG.lean')
    rc, out = sh(f'lake env lean --run {MUT}/Deps.lean')
    assert rc == 0, out[-2000:]
    graph, mod = {}, {}
    for l in out.splitlines():
        p = l.split('\t')
        if len(p) < 3: continue
        graph[p[0]] = set(p[2].split()); mod[p[0]] = p[1]
    rev = collections.defaultdict(set)
    for n, us in graph.items():
        for u in us: rev[u].add(n)
    return graph, mod, rev

DECL = re.compile(r'^(?:@\[[^\]]*\]\s*)?(?:private |protected |noncomputable )*(theorem|def|lemma|example|instance|structure|inductive|abbrev|termination_by)\b\s*(\S*)')
def enclosing(path, line):
    ls = open(path).read().split('\n')
    for i in range(min(line, len(ls)) - 1, -1, -1):
        m = DECL.match(ls[i])
        if m: return m.group(1), m.group(2)
    return None, None

def modules():
    """module name -> (path, imports within the project)"""
    r = {}
    for d, _, fs in os.walk(MUT + '/lean/Verif'):
        for f in fs:
            if f.endswith('.lean'):
                p = os.path.relpath(os.path.join(d, f), MUT + '/lean')
                src = open(MUT + '/lean/' + p).read()
                r[p[:-5].replace('/', '.')] = (p, re.findall(r'^import (Verif\.\S+)', src, re.M))
    return r

def build(edited, jobs=3):
    """Elaborate everything downstream of the module `edited`; oleans go into the build directory of the scratch copy."""
    mods = modules()
    down = {edited}
    while True:
        more = {m for m, (_, im) in mods.items() if m not in down and any(i in down for i in im)}
        if not more: break
        down |= more
    lib = MUT + '/lean/.lake/build/lib/lean/'
    saved = {m: open(lib + m.replace('.', '/') + '.olean', 'rb').read() for m in down}
    errs, done, running, ex = set(), set(), {}, ThreadPoolExecutor(jobs)
    def one(m):
        return m, sh(f'lake env lean --run {MUT}/KG.lean {mods[m][0]} {m} {lib}{m.replace(".", "/")}.olean', timeout=1500)
    try:
        todo = set(down)
        while todo or running:
            for m in sorted(todo):
                if all(i not in down or i in done for i in mods[m][1]):
                    running[ex.submit(one, m)] = m; todo.discard(m)
            fin, _ = wait(running, return_when=FIRST_COMPLETED)
            for f in fin:
                m, (rc, out) = f.result(); done.add(m); del running[f]
                if rc != 0:
                    # the driver itself crashed: fall back to plain lean (no new .olean), and never take that for success
                    print('  driver failed on', m, flush=True)
                    rc, out = sh(f'lake env lean {mods[m][0]}', timeout=1500)
                    out = re.sub(r'^(Verif/\S+:\d+:\d+): error', r'error: \1', out, flags=re.M)
                    if rc != 0 and 'error: Verif' not in out: out += f'\nerror: {mods[m][0]}:999999:0'
                errs |= set(re.findall(r'error: (?:\./)*(Verif/[\w/]+\.lean):(\d+):\d+', out))
    finally:
        ex.shutdown()
    return errs, saved

def restore(saved):
    lib = MUT + '/lean/.lake/build/lib/lean/'
    for m, b in saved.items(): open(lib + m.replace('.', '/') + '.olean', 'wb').write(b)

MAPC = ['C%02d' % i for i in range(1, 26)]
SETC = ['C14', 'C26', 'C27', 'C28', 'C29', 'C30', 'C55', 'C85']
VECC = ['C%02d' % i for i in range(31, 51)] + ['C54']
HEAPC = ['C03', 'C51', 'C52', 'C53']
UNWC = ['C64', 'C65', 'C66', 'C67', 'C68', 'C69', 'C70', 'C72']
WHOLEC = ['C86', 'C87']
def claims_for(f):
    if f in ('Heap/Whole.lean', 'Heap/WholeSets.lean', 'Heap/SetAlg.lean', 'Heap/MutLook.lean', 'Heap/EntryUse.lean', 'Heap/Compare.lean'): return WHOLEC
    if f in ('Heap/Unwind.lean', 'Heap/CloneLedger.lean', 'Heap/UnwindSplit.lean', 'Heap/UnwindOps.lean', 'Heap/Debug.lean', 'Heap/AnyOrd.lean'): return UNWC
    if f == 'Heap/Bytes.lean': return ['C58']
    if f in ('Heap/Conc.lean', 'Heap/AlgUnwind.lean'): return []
    if f.startswith('Heap'): return HEAPC
    if f == 'BTree/Views.lean': return ['C56', 'C57']
    if f == 'BTree/AlgViews.lean': return ['C57']
    if f == 'BTree/AlgUnwind.lean': return ['C71', 'C85']
    if f == 'BTree/AlgCost.lean': return ['C85']
    if f == 'BTree/Unwind.lean': return ['C61', 'C62']
    if f.startswith('BTree/Set'): return SETC + ['C57']
    if f.startswith('BTree'): return MAPC + SETC + ['C56', 'C57', 'C59', 'C60', 'C61', 'C62', 'C84']
    return VECC

def battery(claims, limit=600):
    try:
        rc, out = sh(f'lake env lean --run {MUT}/' + ('BatteryHeap.lean' if claims is HEAPC else 'BatteryUnwind.lean' if claims is UNWC else 'BatteryWhole.lean' if claims is WHOLEC else 'Battery.lean') + ' ' + ' '.join(claims), timeout=limit)
    except subprocess.TimeoutExpired:
        return None
    res = dict(l.split()[:2] for l in out.splitlines() if re.match(r'^C\d\d (true|false)', l))
    return res or None

def main():
    done = {json.loads(l).get('id') for l in open(LOG)} if os.path.exists(LOG) else set()
    ids = sys.argv[1:]
    graph, mod, rev = setup()
    props = [n for n in graph if re.match(r'^Verif\.Props\.C\d\d_', n) and '.' not in n[len('Verif.Props.'):]]
    todo = [m for m in MUTANTS if (m['id'] in ids if ids else m['id'] not in done)]
    for m in todo:
        f = f"{MUT}/lean/Verif/{m['file']}"
        src = open(f).read()
        n = src.count(m['old'])
        if n != 1:
            print('SKIP', m['id'], 'pattern occurs', n, 'times', flush=True); continue
        open(f, 'w').write(src.replace(m['old'], m['new']))
        saved = {}
        try:
            errs, saved = build('Verif.' + m['file'][:-5].replace('/', '.'))
            failed, broken, ex = set(), set(), 0
            model_broken = False
            for p, ln in errs:
                kind, name = enclosing(f'{MUT}/lean/{p}', int(ln))
                mname = p[:-5].replace('/', '.')
                if kind == 'example': ex += 1; continue
                cands = [c for c in graph if mod[c] == mname and (c.endswith('.' + name) or c == name)] if name else []
                broken |= set(cands)
                if p == 'Verif/' + m['file'] and kind in ('def', 'structure', 'inductive', 'abbrev'): model_broken = True
            todo_, seen = list(broken), set(broken)
            while todo_:
                x = todo_.pop()
                for y in rev.get(x, ()):
                    if y not in seen: seen.add(y); todo_.append(y)
            failed = sorted(p.split('.')[-1] for p in props if p in seen)
            bat = None if model_broken else (battery(claims_for(m['file'])) if claims_for(m['file']) else {})
            false_claims = sorted(c for c, v in (bat or {}).items() if v == 'false')
            fc = {t[:3] for t in failed}
            weak = [c for c in false_claims if c not in fc]
            rec = {'id': m['id'], 'definition': m['defn'], 'file': 'lean/Verif/' + m['file'], 'edit': m['old'].strip() + '  ==>  ' + m['new'].strip(), 'claim_broken': m['claim'],
                   'claims_false_on_samples': false_claims if bat else 'not evaluated', 'lemmas_failed_first': sorted(b.replace('Verif.', '', 1) for b in broken)[:12],
                   'examples_failed': ex, 'theorems_failed': failed, 'theorems_tightened': m.get('tightened', [])}
            tag = 'MODEL-BROKEN' if model_broken else ('WEAK ' + ','.join(weak) if weak else ('SURVIVED' if not failed and not ex else 'ok'))
            if bat is None and not model_broken: tag += ' (battery timeout)'
            if not false_claims: tag += ' (no sample false)'
            print(m['id'], tag, 'false:', ','.join(false_claims), '| broken:', sorted(b.split('.')[-1] for b in broken)[:6], '| failed', len(failed), flush=True)
            if not model_broken and 'nolog' not in os.environ:
                open(LOG, 'a').write(json.dumps(rec) + '\n')
        finally:
            open(f, 'w').write(src)
            restore(saved)
main()
