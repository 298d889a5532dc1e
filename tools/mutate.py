"""Seed wrong programs: python3 tools/mutate.py batch.json
batch.json: list of {"file","definition","old","new","claim","edit"(optional)}; file relative to lean/Verif.
Works in a scratch copy (/tmp/mut) and appends one line per attempt to seeded/LOG.jsonl."""
import json, os, re, subprocess, sys, shutil
V = '/verif'; M = '/tmp/mut'
subprocess.run(['mkdir', '-p', M]); subprocess.run(['rsync', '-a', '--delete', V + '/lean/', M + '/']) if shutil.which('rsync') else (shutil.rmtree(M), shutil.copytree(V + '/lean', M, symlinks=True))
man = json.load(open(V + '/MANIFEST.json'))
claimed = {t: c['property'] for c in man['claims'] for t in c['theorems']}
for m in json.load(open(sys.argv[1])):
    p = f"{M}/Verif/{m['file']}"
    src = open(p).read()
    n = src.count(m['old'])
    if n != 1:
        print('SKIP', m['definition'], 'matches', n); continue
    open(p, 'w').write(src.replace(m['old'], m['new']))
    proc = subprocess.run('lake build 2>&1', shell=True, cwd=M, capture_output=True, text=True)
    out = proc.stdout
    errs = re.findall(r'error: (?:\S*?/)?(Verif/\S+\.lean):(\d+):', out)
    thms = []
    for f, l in errs:
        lines = open(f'{M}/{f}').read().split('\n')
        for k in range(min(int(l), len(lines)) - 1, -1, -1):
            mm = re.match(r'(?:private )?(theorem|def|example|instance)\b\s*([\w\.\']*)', lines[k])
            if mm:
                nm = (mm.group(2) or mm.group(1)) + f' ({f[6:]})'
                if nm not in thms: thms.append(nm)
                break
    bad = set(re.findall(r'^- (Verif\.\S+)', out, re.M))
    # modules not built because of failed imports
    # the exit code: the word `error` is also in replayed info lines about theorems named so
    built_ok = proc.returncode == 0
    if not built_ok and not errs: print('   -> failed outside any theorem, not logged:', out[-400:]); open(p, 'w').write(src); continue
    blocked = []
    if not built_ok:
        failedmods = set(f[:-5].replace('/', '.') for f, _ in errs)
        imports = {}
        for root, _, fs in os.walk(M + '/Verif'):
            for fn in fs:
                if fn.endswith('.lean'):
                    mod = os.path.relpath(os.path.join(root, fn), M)[:-5].replace('/', '.')
                    imports[mod] = re.findall(r'^import (Verif\.\S+)', open(os.path.join(root, fn)).read(), re.M)
        ch = True; dead = set(failedmods)
        while ch:
            ch = False
            for k, v in imports.items():
                if k not in dead and any(x in dead for x in v): dead.add(k); ch = True
        blocked = sorted(d[12:] for d in dead if d.startswith('Verif.Props.') and d not in failedmods)
    open(p, 'w').write(src)
    if thms and all('(Model/' in x for x in thms): print('INVALID', m['definition'], 'the edit does not compile, not logged'); continue
    rec = {"definition": m['definition'], "edit": m.get('edit') or f"{m['old'].strip()}  =>  {m['new'].strip()}", "claim": m['claim'], "failed": thms, "blocked_property_modules": blocked, "tightened": m.get('tightened', [])}
    if built_ok: rec['note'] = m.get('note', 'SURVIVED')
    print(('KILLED ' if not built_ok else 'SURVIVED ') + m['definition'], thms[:4], blocked[:6], flush=True)
    if built_ok and 'note' not in m:
        print('   -> not logged; investigate'); continue
    with open(V + '/seeded/LOG.jsonl', 'a') as fh: fh.write(json.dumps(rec, ensure_ascii=False) + '\n')
subprocess.run('lake build >/dev/null 2>&1', shell=True, cwd=M)
