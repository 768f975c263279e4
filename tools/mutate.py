#!/usr/bin/env python3
"""Apply edits to a scratch copy of the model, one at a time, rebuild, and report what fails.

usage: mutate.py edits.json   (a list of {"file","definition","old","new","breaks"}; "file" is relative to lean/Verif;
"also" may have further {"file","old","new"} of the same edit, e.g. in the decoder)
Prints one JSON line per edit: the declarations with errors and the modules that could not be built.
"""
import json, os, re, shutil, subprocess, sys
SRC = os.environ.get('MUT_SRC', '/verif/lean')
DST = os.environ.get('MUT_DST', '/root/mut/lean')

def decl_at(path, line):
    text = open(path).read().split('\n')
    for k in range(min(line, len(text)) - 1, -1, -1):
        m = re.match(r'^(?:@\[[^\]]*\]\s*)?(?:protected |private )?(theorem|def|abbrev|instance|example|inductive|structure|macro)\b\s*([^\s:({\[]*)', text[k])
        if m:
            return m.group(2) or m.group(1)
    return '?'

def main():
    edits = json.load(open(sys.argv[1]))
    for e in edits:
        subprocess.run(['rsync', '-a', '--delete', SRC + '/', DST + '/'], check=True) if shutil.which('rsync') else \
            (shutil.rmtree(DST, ignore_errors=True), subprocess.run(['cp', '-a', SRC, DST], check=True))
        error = None
        for f in [e] + e.get('also', []):
            p = os.path.join(DST, 'Verif', f['file'])
            s = open(p).read()
            if s.count(f['old']) != 1:
                error = 'old occurs %d times: %s' % (s.count(f['old']), f['old'])
                break
            open(p, 'w').write(s.replace(f['old'], f['new']))
        if error:
            print(json.dumps({**e, 'error': error}), flush=True)
            continue
        r = subprocess.run(['lake', 'build'], cwd=DST, capture_output=True, text=True)
        out = r.stdout + r.stderr
        failed = []
        for m in re.finditer(r'^error: (Verif/\S+?\.lean):(\d+):', out, re.M):
            d = m.group(1)[6:-5] + ':' + decl_at(os.path.join(DST, m.group(1)), int(m.group(2)))
            if d not in failed:
                failed.append(d)
        mods = re.findall(r'^- (Verif\.\S+)', out, re.M)   # lake's list of the targets that failed
        killed = 'exited with code 137' in out or 'exited with code 134' in out
        print(json.dumps({**e, 'ok': r.returncode == 0, 'failed': failed, 'modules': mods, 'killed': killed}), flush=True)
main()
